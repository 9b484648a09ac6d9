import Verif.Pipeline.ChannelsProps
/-!
# C77: `PruneChannels` changes nothing when it is called again

`GatherFlatAnimForNode` calls `PruneChannels` after each node, and `PruneChannels` goes over the channels of all bones (anim_data.cpp:181-182).
-/

namespace Motive.Pipeline
open Motive.Curve Motive.Matrix4

noncomputable section
open Classical

/-- No step of `PruneChannels` applies, at any position. -/
def Still (tl : Tolerances) (nu : Bool) : List Channel → Prop
  | [] => True
  | c :: rest => ¬ (nu = false ∧ uniformScaleChannels tl (c :: rest)) ∧ summableChannel c.op rest = none ∧
      (∀ n, c.nodes = [n] → ¬ isDefaultValue tl c.op n.val) ∧ Still tl nu rest

theorem Still.drop {tl : Tolerances} {nu : Bool} : ∀ {chs : List Channel} (k : ℕ), Still tl nu chs → Still tl nu (chs.drop k)
  | _, 0, h => h
  | [], k + 1, h => by simpa using h
  | _ :: cs, k + 1, h => Still.drop (chs := cs) k h.2.2.2

theorem Still.pruneStep {tl : Tolerances} {nu : Bool} : ∀ {chs : List Channel}, Still tl nu chs → pruneStep tl nu chs = some chs
  | [], _ => rfl
  | c :: rest, ⟨h1, h2, h3, _⟩ => by
    have e1 : collapseScale tl nu (c :: rest) = c :: rest := by
      unfold collapseScale; exact if_neg h1
    have e2 : sumWithLater (c :: rest) = some (c :: rest) := by
      unfold sumWithLater; simp only [h2]
    unfold Pipeline.pruneStep
    rw [e1, e2]
    dsimp only
    congr 1
    unfold dropDefault
    rcases hn : c.nodes with _ | ⟨n, _ | _⟩ <;> simp only [hn]
    rw [if_neg (h3 n hn)]

theorem Still.pruneLoop {tl : Tolerances} {nu : Bool} {chs : List Channel} (h : Still tl nu chs) : ∀ k, pruneLoop tl nu k chs = some chs
  | 0 => rfl
  | k + 1 => by
    unfold Pipeline.pruneLoop
    rw [(h.drop k).pruneStep]
    dsimp only
    rw [List.take_append_drop]
    exact Still.pruneLoop h k

/-! ### Where nothing can be joined -/

theorem not_uniform_of_op {tl : Tolerances} {c : Channel} {rest : List Channel} (h : ¬ IsXyz c.op) : ¬ uniformScaleChannels tl (c :: rest) := by
  intro hu
  rcases rest with _ | ⟨c1, _ | ⟨c2, rest⟩⟩
  · exact hu
  · exact hu
  · exact h hu.1.isXyz.1

theorem isTranslate_not_xyz {t : OpType} (h : t.isTranslate = true) : ¬ IsXyz t := by
  rintro (rfl | rfl | rfl) <;> simp [OpType.isTranslate] at h

/-- Past translations, a translation can be joined with something if it can be without them. -/
theorem summable_past {t : OpType} (ht : t.isTranslate = true) {pre post : List Channel} (hp : ∀ p ∈ pre, p.op.isTranslate = true) :
    summableChannel t (pre ++ post) = none ↔ (∀ p ∈ pre, p.op ≠ t) ∧ summableChannel t post = none := by
  have hr : t.isRotate = false := by cases t <;> simp_all [OpType.isRotate, OpType.isTranslate]
  have hs : t.isScale = false := by cases t <;> simp_all [OpType.isScale, OpType.isTranslate]
  induction pre with
  | nil => simp
  | cons p pre ih =>
    have hp1 := hp p (by simp)
    rw [List.cons_append, summableChannel]
    by_cases hpt : p.op = t
    · simp [hpt]
    · simp only [hpt, if_false, hr, hs, ht, hp1, Bool.false_eq_true, Bool.not_true, Bool.and_false, Bool.false_and]
      have ih' := ih fun q hq => hp q (by simp [hq])
      simp only [Option.map_eq_none_iff, ih']
      simp [hpt]

/-- The next channel that a translation can be joined with is the first of its kind. -/
theorem summable_first {t : OpType} : ∀ {pre post : List Channel} {d : Channel},
    summableChannel t (pre ++ d :: post) = some pre.length → d.op = t → ∀ p ∈ pre, p.op ≠ t
  | [], _, _, _, _ => by simp
  | q :: pre, post, d, h, hd => by
    rw [List.cons_append, summableChannel] at h
    split_ifs at h with h1 h2 h3 h4
    · simp at h
    · obtain ⟨j, hj, e⟩ := Option.map_eq_some_iff.mp h
      have : j = pre.length := by simpa using e
      subst this
      intro p hp
      rcases List.mem_cons.mp hp with rfl | hp
      · exact h1
      · exact summable_first hj hd p hp

theorem still_erase {tl : Tolerances} {nu : Bool} {d : Channel} (hd : d.op.isTranslate = true) : ∀ {pre post : List Channel},
    (∀ p ∈ pre, p.op.isTranslate = true) → Still tl nu (pre ++ d :: post) → Still tl nu (pre ++ post)
  | [], post, _, h => h.2.2.2
  | p :: pre, post, hp, h => by
    have hp1 := hp p (by simp)
    have hp2 : ∀ q ∈ pre, q.op.isTranslate = true := fun q hq => hp q (by simp [hq])
    obtain ⟨-, h2, h3, h4⟩ := h
    refine ⟨fun h => not_uniform_of_op (isTranslate_not_xyz hp1) h.2, ?_, h3, still_erase hd hp2 h4⟩
    rw [List.append_eq] at h2
    rw [List.append_eq, summable_past hp1 hp2]
    rw [summable_past hp1 hp2] at h2
    refine ⟨h2.1, ?_⟩
    have := (summable_past (t := p.op) hp1 (pre := [d]) (post := post) (by simpa using hd)).mp (by simpa using h2.2)
    exact this.2

/-- A scale is not summed if its kind does not occur again. -/
theorem summable_none {t : OpType} : ∀ {rest : List Channel}, (∀ d ∈ rest, d.op ≠ t) → summableChannel t rest = none
  | [], _ => rfl
  | d :: ds, h => by
    unfold summableChannel
    rw [if_neg (h d (by simp)), summable_none fun e he => h e (by simp [he])]
    simp

/-! ### The steps -/

theorem still_dropDefault {tl : Tolerances} {nu : Bool} {c : Channel} {rest : List Channel}
    (h1 : ¬ (nu = false ∧ uniformScaleChannels tl (c :: rest))) (h2 : summableChannel c.op rest = none) (h3 : Still tl nu rest) :
    Still tl nu (dropDefault tl (c :: rest)) := by
  unfold dropDefault
  rcases hn : c.nodes with _ | ⟨n, _ | ⟨m, ns⟩⟩ <;> simp only [hn]
  · exact ⟨h1, h2, by simp [hn], h3⟩
  · split_ifs with hd
    · exact h3
    · refine ⟨h1, h2, ?_, h3⟩
      intro n' hn'
      rw [hn] at hn'
      obtain rfl : n = n' := by simpa using hn'
      exact hd
  · exact ⟨h1, h2, by simp [hn], h3⟩

theorem pruneStep_still {tl : Tolerances} {nu : Bool} {τ : OpType → ℤ × ℤ} {pre cur tail : List Channel} {c : Channel}
    (hg : Good τ (pre ++ c :: cur)) (hs : Still tl nu cur) (h : pruneStep tl nu (c :: cur) = some tail) : Still tl nu tail := by
  have hpair : ∀ d ∈ cur, PairOk c d := (List.pairwise_cons.mp (List.pairwise_append.mp hg.2).2.1).1
  have hsup : Supported c.op := (hg.1 c (by simp)).1
  unfold Pipeline.pruneStep at h
  by_cases hu : nu = false ∧ uniformScaleChannels tl (c :: cur)
  · obtain ⟨c1, c2, cs, rfl⟩ : ∃ c1 c2 cs, cur = c1 :: c2 :: cs := by
      rcases cur with _ | ⟨c1, _ | ⟨c2, cs⟩⟩
      · exact hu.2.elim
      · exact hu.2.elim
      · exact ⟨c1, c2, cs, rfl⟩
    have e1 : collapseScale tl nu (c :: c1 :: c2 :: cs) =
        { c with id := c.id + (opValue .scaleUniformly - opValue c.op), op := .scaleUniformly } :: cs := by
      unfold collapseScale
      dsimp only
      rw [if_pos hu]; rfl
    have hg' := hg.uniform hu.2.1 (τ := τ)
    have hno : ∀ d ∈ cs, d.op ≠ .scaleUniformly := by
      intro d hd
      have := (List.pairwise_cons.mp (List.pairwise_append.mp hg'.2).2.1).1 d hd
      exact this.1 (by simp [OpType.isScale])
    rw [e1] at h
    have e2 : summableChannel .scaleUniformly cs = none := summable_none hno
    unfold sumWithLater at h
    simp only [e2, Option.some.injEq] at h
    rw [← h]
    exact still_dropDefault (fun h => not_uniform_of_op (by unfold IsXyz; simp) h.2) e2 (hs.drop 2)
  · have e1 : collapseScale tl nu (c :: cur) = c :: cur := by unfold collapseScale; exact if_neg hu
    rw [e1] at h
    unfold sumWithLater at h
    rcases hk : summableChannel c.op cur with _ | k
    · simp only [hk, Option.some.injEq] at h
      rw [← h]
      exact still_dropDefault hu hk hs
    · obtain ⟨p, d, q, rfl, rfl, hd, hrot, htr⟩ := summable_spec (t := c.op) (by
        unfold Supported at hsup; tauto) hk
      have hsc : c.op.isScale = false := by
        rcases hb : c.op.isScale with _ | _
        · rfl
        · exact absurd hd ((hpair d (by simp)).1 hb)
      simp only [hk, List.getElem?_append_right (le_refl p.length), Nat.sub_self, List.getElem?_cons_zero] at h
      rcases hsum : sumNodes c.nodes d.nodes with _ | nodes
      · simp [hsum] at h
      · simp only [hsum, Option.some.injEq] at h
        rw [← h]
        have he : (p ++ d :: q).eraseIdx p.length = p ++ q := by
          rw [List.eraseIdx_append_of_length_le (le_refl _)]; simp
        rw [he]
        have hx : ¬ IsXyz c.op := by
          rintro (h | h | h) <;> rw [h] at hsc <;> simp [OpType.isScale] at hsc
        have htail : Still tl nu (d :: q) := by
          have := hs.drop p.length
          rwa [List.drop_left] at this
        refine still_dropDefault (fun h => not_uniform_of_op (c := { c with nodes := nodes }) hx h.2) ?_ ?_
        · change summableChannel c.op (p ++ q) = none
          by_cases hr : c.op.isRotate
          · rw [hrot hr]
            rw [← hd]; exact htail.2.1
          · have ht : c.op.isTranslate := by
              unfold Supported at hsup
              rcases hsup with h | h | h
              · exact absurd h hr
              · exact h
              · rw [hsc] at h; simp at h
            rw [summable_past ht (htr ht)]
            exact ⟨summable_first hk hd, by rw [← hd]; exact htail.2.1⟩
        · by_cases hr : c.op.isRotate
          · rw [hrot hr]; exact htail.2.2.2
          · have ht : c.op.isTranslate := by
              unfold Supported at hsup
              rcases hsup with h | h | h
              · exact absurd h hr
              · exact h
              · rw [hsc] at h; simp at h
            exact still_erase (hd ▸ ht) (htr ht) hs

theorem pruneLoop_still {tl : Tolerances} {nu : Bool} {τ : OpType → ℤ × ℤ} : ∀ (k : ℕ) {pre cur os out : List Channel}, pre.length = k →
    Good τ (pre ++ cur) → Steps tl os cur → Still tl nu cur → pruneLoop tl nu k (pre ++ cur) = some out → Still tl nu out := by
  intro k
  induction k with
  | zero =>
    intro pre cur os out hk hg _ hs h
    obtain rfl : pre = [] := List.length_eq_zero_iff.mp hk
    have : cur = out := by simpa [Pipeline.pruneLoop] using h
    exact this ▸ hs
  | succ k ih =>
    intro pre cur os out hk hg hst hs h
    obtain ⟨pre, c, rfl⟩ : ∃ p c, pre = p ++ [c] := by
      rcases List.eq_nil_or_concat pre with rfl | ⟨p, c, rfl⟩
      · simp at hk
      · exact ⟨p, c, by simp⟩
    have hk : pre.length = k := by simpa using hk
    rw [List.append_assoc] at hg h
    change Good τ (pre ++ c :: cur) at hg
    change Pipeline.pruneLoop tl nu (k + 1) (pre ++ c :: cur) = _ at h
    obtain ⟨tail, t1, t2, t3, t4⟩ := pruneStep_spec (nu := nu) hg hst
    unfold Pipeline.pruneLoop at h
    rw [← hk, List.drop_left, List.take_left, t1, hk] at h
    exact ih hk t3 t2 (pruneStep_still hg hs t1) h

/-! ### The sort -/

/-- Two translations that follow each other are exchanged. -/
inductive Swap : List Channel → List Channel → Prop
  | swap {u v : List Channel} {c d : Channel} : c.op.isTranslate = true → d.op.isTranslate = true → Swap (u ++ c :: d :: v) (u ++ d :: c :: v)

theorem swap_cons {x : Channel} {a b : List Channel} (h : Relation.ReflTransGen Swap a b) : Relation.ReflTransGen Swap (x :: a) (x :: b) := by
  induction h with
  | refl => exact .refl
  | tail _ h ih =>
    refine ih.tail ?_
    cases h with
    | @swap u v c d hc hd => exact .swap (u := x :: u) hc hd

theorem swap_front {x : Channel} {q : List Channel} (hx : x.op.isTranslate = true) : ∀ {p : List Channel}, (∀ e ∈ p, e.op.isTranslate = true) →
    Relation.ReflTransGen Swap (p ++ x :: q) (x :: (p ++ q))
  | [], _ => .refl
  | e :: p, h => (swap_cons (swap_front hx fun f hf => h f (by simp [hf]))).tail (.swap (u := []) (h e (by simp)) hx)

theorem sort_swaps {τ : OpType → ℤ × ℤ} : ∀ (b a : List Channel), Good τ a → b.Perm a → b.Pairwise (fun c d => c.id ≤ d.id) →
    Relation.ReflTransGen Swap a b
  | [], a, _, hp, _ => by rw [List.Perm.eq_nil hp.symm]
  | x :: b, a, hg, hp, hs => by
    obtain ⟨p, q, rfl⟩ := List.append_of_mem (hp.subset (List.mem_cons_self))
    have hp' : b.Perm (p ++ q) := (List.perm_cons x).mp (hp.trans List.perm_middle)
    rw [List.pairwise_cons] at hs
    have hx : ∀ e ∈ p, e.op.isTranslate = true ∧ x.op.isTranslate = true := by
      intro e he
      have h1 := (List.pairwise_append.mp hg.2).2.2 e he x (by simp)
      rcases h1.2.2.2 with h | ⟨h, -⟩
      · exact h
      · have := hs.1 e (hp'.symm.subset (by simp [he]))
        omega
    have hmv : Relation.ReflTransGen Swap (p ++ x :: q) (x :: (p ++ q)) := by
      cases p with
      | nil => exact .refl
      | cons e p => exact swap_front (hx e (by simp)).2 fun d hd => (hx d hd).1
    exact hmv.trans (swap_cons (sort_swaps b (p ++ q) (hg.sublist (List.Sublist.append (List.Sublist.refl p) (List.sublist_cons_self x q))) hp' hs.2))

theorem summable_swap {t : OpType} {c d : Channel} (hc : c.op.isTranslate = true) (hd : d.op.isTranslate = true) {v : List Channel} :
    ∀ {u : List Channel}, summableChannel t (u ++ c :: d :: v) = none → summableChannel t (u ++ d :: c :: v) = none
  | [], h => by
    simp only [List.nil_append] at h ⊢
    by_cases ht : t.isTranslate
    · have := (summable_past (t := t) ht (pre := [c, d]) (post := v) (by simp [hc, hd])).mp (by simpa using h)
      exact (summable_past (t := t) ht (pre := [d, c]) (post := v) (by simp [hc, hd])).mpr ⟨by
        intro p hp
        exact this.1 p (by simp at hp ⊢; tauto), this.2⟩
    · have hdt : d.op ≠ t := by rintro rfl; exact ht hd
      have hct : c.op ≠ t := by rintro rfl; exact ht hc
      have hs : ∀ o : OpType, o.isTranslate = true → o.isScale = false := by
        intro o ho; cases o <;> simp_all [OpType.isTranslate, OpType.isScale]
      have hcs := hs _ hc
      have hds := hs _ hd
      simp only [summableChannel, hct, hdt, if_false, hc, hd, hcs, hds] at h ⊢
      exact h
  | e :: u, h => by
    rw [List.cons_append, summableChannel] at h ⊢
    split_ifs at h ⊢ with h1 h2 h3 h4
    all_goals first | rfl | skip
    rw [Option.map_eq_none_iff] at h ⊢
    exact summable_swap hc hd h

theorem uniform_swap {tl : Tolerances} {e c d : Channel} (hd : d.op.isTranslate = true) {u v : List Channel}
    (h : uniformScaleChannels tl (e :: (u ++ d :: c :: v))) : uniformScaleChannels tl (e :: (u ++ c :: d :: v)) := by
  rcases u with _ | ⟨f, _ | ⟨g, u⟩⟩
  · exact absurd h.1.isXyz.2.1 (isTranslate_not_xyz hd)
  · exact absurd h.1.isXyz.2.2 (isTranslate_not_xyz hd)
  · exact h

theorem still_swap {tl : Tolerances} {nu : Bool} {c d : Channel} (hc : c.op.isTranslate = true) (hd : d.op.isTranslate = true)
    {v : List Channel} : ∀ {u : List Channel}, Still tl nu (u ++ c :: d :: v) → Still tl nu (u ++ d :: c :: v)
  | [], h => by
    obtain ⟨-, h2, h3, -, h5, h6, h7⟩ := h
    have hx := (summable_past (t := c.op) hc (pre := [d]) (post := v) (by simpa using hd)).mp (by simpa using h2)
    refine ⟨fun h => not_uniform_of_op (isTranslate_not_xyz hd) h.2, ?_, h6, fun h => not_uniform_of_op (isTranslate_not_xyz hc) h.2, hx.2, h3, h7⟩
    exact (summable_past (t := d.op) hd (pre := [c]) (post := v) (by simpa using hc)).mpr ⟨by
      intro p hp
      obtain rfl : p = c := by simpa using hp
      exact fun e => hx.1 d (by simp) e.symm, h5⟩
  | e :: u, h => by
    obtain ⟨h1, h2, h3, h4⟩ := h
    exact ⟨fun h => h1 ⟨h.1, uniform_swap hd h.2⟩, summable_swap hc hd h2, h3, still_swap hc hd h4⟩

theorem still_swaps {tl : Tolerances} {nu : Bool} {a b : List Channel} (h : Relation.ReflTransGen Swap a b) (ha : Still tl nu a) :
    Still tl nu b := by
  induction h with
  | refl => exact ha
  | tail _ h ih =>
    cases h with
    | swap hc hd => exact still_swap hc hd ih

/-- A sort leaves a sorted list with different ids alone. -/
theorem sort_sorted {sort : List Channel → List Channel} (hsort : Sorts sort) {l : List Channel} (h : l.Pairwise fun c d => c.id < d.id) :
    sort l = l := by
  obtain ⟨h1, h2⟩ := hsort l
  refine h1.eq_of_pairwise (le := fun c d => c.id ≤ d.id) ?_ h2 (h.imp fun h => h.le)
  intro a b ha hb h3 h4
  have e : a.id = b.id := le_antisymm h3 h4
  have ha' : a ∈ l := h1.subset ha
  have hn : (l.map Channel.id).Nodup := by
    rw [List.nodup_iff_pairwise_ne, List.pairwise_map]
    exact h.imp fun h => h.ne
  exact List.inj_on_of_nodup_map hn ha' hb e

/-! ### Ids after the loop -/

theorem pruneStep_mem {tl : Tolerances} {nu : Bool} {P : OpType → ℕ → Prop} (hP : ∀ i, P .scaleUniformly i) {chs tail : List Channel}
    (h : pruneStep tl nu chs = some tail) (hc : ∀ c ∈ chs, P c.op c.id) : ∀ c ∈ tail, P c.op c.id := by
  unfold Pipeline.pruneStep at h
  have h1 : ∀ c ∈ collapseScale tl nu chs, P c.op c.id := by
    unfold collapseScale
    rcases chs with _ | ⟨c, rest⟩
    · simp
    · dsimp only
      split_ifs
      · intro d hd
        rcases List.mem_cons.mp hd with rfl | hd
        · exact hP _
        · exact hc d (List.mem_cons_of_mem _ (List.mem_of_mem_drop hd))
      · exact hc
  have h2 : ∀ {l l' : List Channel}, sumWithLater l = some l' → (∀ c ∈ l, P c.op c.id) → ∀ c ∈ l', P c.op c.id := by
    intro l l' hl hp
    unfold sumWithLater at hl
    rcases l with _ | ⟨c, rest⟩
    · obtain rfl : [] = l' := by simpa using hl
      simp
    · dsimp only at hl
      rcases hk : summableChannel c.op rest with _ | k
      · simp only [hk, Option.some.injEq] at hl
        exact hl ▸ hp
      · simp only [hk] at hl
        rcases hr : rest[k]? with _ | d
        · simp [hr] at hl
        · simp only [hr] at hl
          rcases hn : sumNodes c.nodes d.nodes with _ | nodes
          · simp [hn] at hl
          · simp only [hn, Option.some.injEq] at hl
            rw [← hl]
            intro e he
            rcases List.mem_cons.mp he with rfl | he
            · exact hp c (by simp)
            · exact hp e (List.mem_cons_of_mem _ (List.mem_of_mem_eraseIdx he))
  rcases hs : sumWithLater (collapseScale tl nu chs) with _ | l
  · simp [hs] at h
  · simp only [hs, Option.some.injEq] at h
    have h3 := h2 hs h1
    rw [← h]
    unfold dropDefault
    rcases l with _ | ⟨c, rest⟩
    · simp
    · dsimp only
      split
      · split_ifs
        · exact fun d hd => h3 d (by simp [hd])
        · exact h3
      · exact h3

theorem pruneLoop_mem {tl : Tolerances} {nu : Bool} {P : OpType → ℕ → Prop} (hP : ∀ i, P .scaleUniformly i) : ∀ (k : ℕ)
    {chs out : List Channel}, pruneLoop tl nu k chs = some out → (∀ c ∈ chs, P c.op c.id) → ∀ c ∈ out, P c.op c.id
  | 0, chs, out, h, hc => by
    obtain rfl : chs = out := by simpa [Pipeline.pruneLoop] using h
    exact hc
  | k + 1, chs, out, h, hc => by
    unfold Pipeline.pruneLoop at h
    rcases hs : Pipeline.pruneStep tl nu (chs.drop k) with _ | tail
    · simp [hs] at h
    · simp only [hs] at h
      refine pruneLoop_mem hP k h ?_
      intro c hm
      rcases List.mem_append.mp hm with hm | hm
      · exact hc c (List.mem_of_mem_take hm)
      · exact pruneStep_mem hP hs (fun d hd => hc d (List.mem_of_mem_drop hd)) c hm

/-- Translations with the same id are along the same axis. -/
def IdsOk (chs : List Channel) : Prop :=
  ∀ c ∈ chs, ∀ d ∈ chs, c.op.isTranslate = true → d.op.isTranslate = true → c.id = d.id → c.op = d.op

theorem still_ids {tl : Tolerances} {nu : Bool} : ∀ {chs : List Channel}, Still tl nu chs → chs.Pairwise PairOk → IdsOk chs →
    chs.Pairwise fun c d => c.id ≠ d.id
  | [], _, _, _ => .nil
  | c :: rest, hs, hp, hi => by
    rw [List.pairwise_cons] at hp ⊢
    refine ⟨?_, still_ids hs.2.2.2 hp.2 fun a ha b hb => hi a (by simp [ha]) b (by simp [hb])⟩
    intro d hd e
    obtain ⟨u, v, rfl⟩ := List.append_of_mem hd
    have hcd := hp.1 d (by simp)
    have ht : c.op.isTranslate = true ∧ d.op.isTranslate = true := by
      rcases hcd.2.2.2 with h | ⟨h, -⟩
      · exact h
      · omega
    have hop := hi c (by simp) d (by simp) ht.1 ht.2 e
    have hu : ∀ p ∈ u, p.op.isTranslate = true := by
      intro p hpu
      rcases (hp.1 p (by simp [hpu])).2.2.2 with h | ⟨h1, -⟩
      · exact h.2
      · rcases ((List.pairwise_append.mp hp.2).2.2 p hpu d (by simp)).2.2.2 with h | ⟨h2, -⟩
        · exact h.1
        · omega
    have := ((summable_past ht.1 hu).mp hs.2.1).2
    rw [summableChannel, if_pos hop.symm] at this
    simp at this

/-! ### C77 -/

/-- C77: once the channels of a bone have been pruned, pruning them again changes nothing, however often; the ids of the channels differ.  For
the channels that C52 describes, if translations with the same id are along the same axis. -/
theorem C77_prune_again {tl : Tolerances} {nu : Bool} {τ : OpType → ℤ × ℤ} {w : ℝ} {sort : List Channel → List Channel}
    (hsort : Sorts sort) {chs : List Channel} (hok : ∀ c ∈ chs, ChannelOk τ w c) (hpair : chs.Pairwise PairOk) (hids : IdsOk chs) :
    ∃ out, pruneChannels sort tl nu chs = some out ∧ pruneChannels sort tl nu out = some out ∧ out.Pairwise fun c d => c.id < d.id := by
  have hg : Good τ chs := ⟨fun c hc => ⟨(hok c hc).1, (hok c hc).2.1⟩, hpair⟩
  obtain ⟨out, o1, o2, o3, o4⟩ := pruneLoop_spec (tl := tl) (nu := nu) chs.length (pre := chs) (cur := []) (os := []) rfl
    (by simpa using hg) .nil
  have hst : Still tl nu out := pruneLoop_still chs.length (pre := chs) (cur := []) (os := []) rfl (by simpa using hg) .nil trivial o1
  rw [List.append_nil] at o1 o2 o4
  obtain ⟨s1, s2⟩ := hsort out
  have hst' : Still tl nu (sort out) := still_swaps (sort_swaps (sort out) out o3 s1 s2) hst
  have hio : IdsOk out := by
    have hm := pruneLoop_mem (P := fun o i => o.isTranslate = true → ∃ c ∈ chs, c.op = o ∧ c.id = i) (by simp [OpType.isTranslate]) _ o1
      (fun c hc _ => ⟨c, hc, rfl, rfl⟩)
    intro c hc d hd h1 h2 e
    obtain ⟨c', c1, c2, c3⟩ := hm c hc h1
    obtain ⟨d', d1, d2, d3⟩ := hm d hd h2
    rw [← c2, ← d2]
    exact hids c' c1 d' d1 (by rw [c2]; exact h1) (by rw [d2]; exact h2) (by rw [c3, d3]; exact e)
  have hne : (sort out).Pairwise fun c d => c.id ≠ d.id :=
    (s1.pairwise_iff (fun h e => h e.symm)).mpr (still_ids hst o3.2 hio)
  have hlt : (sort out).Pairwise fun c d => c.id < d.id := (s2.and hne).imp fun h => lt_of_le_of_ne h.1 h.2
  refine ⟨sort out, by unfold pruneChannels; rw [o1], ?_, hlt⟩
  unfold pruneChannels
  rw [hst'.pruneLoop]
  dsimp only
  rw [sort_sorted hsort hlt]

/-- Without the condition on the scales, the second call can change something: the sum of two scales along x makes three equal scales. -/
theorem C77_two_scales_change : ∃ (tl : Tolerances) (chs a b : List Channel), tl.Ok ∧ a ≠ b ∧
    ∀ sort, Sorts sort → pruneChannels sort tl false chs = some a ∧ pruneChannels sort tl false a = some b := by
  refine ⟨⟨1 / 10, 1 / 10, 1 / 10, 1 / 10, 1 / 10⟩,
    [⟨.scaleX, 0, [⟨0, 4, 0⟩]⟩, ⟨.scaleX, 1, [⟨0, 5, 0⟩]⟩, ⟨.scaleY, 2, [⟨0, 9, 0⟩]⟩, ⟨.scaleZ, 3, [⟨0, 9, 0⟩]⟩],
    [⟨.scaleX, 0, [⟨0, 9, 0⟩]⟩, ⟨.scaleY, 2, [⟨0, 9, 0⟩]⟩, ⟨.scaleZ, 3, [⟨0, 9, 0⟩]⟩], [⟨.scaleUniformly, 3, [⟨0, 9, 0⟩]⟩], ?_, by simp, ?_⟩
  · have := Real.two_le_pi
    unfold Tolerances.Ok
    refine ⟨?_, ?_, ?_, ?_, ?_⟩ <;> norm_num
    linarith
  · intro sort hsort
    have h1 : pruneLoop ⟨1 / 10, 1 / 10, 1 / 10, 1 / 10, 1 / 10⟩ false 4
        [⟨.scaleX, 0, [⟨0, 4, 0⟩]⟩, ⟨.scaleX, 1, [⟨0, 5, 0⟩]⟩, ⟨.scaleY, 2, [⟨0, 9, 0⟩]⟩, ⟨.scaleZ, 3, [⟨0, 9, 0⟩]⟩] =
        some [⟨.scaleX, 0, [⟨0, 9, 0⟩]⟩, ⟨.scaleY, 2, [⟨0, 9, 0⟩]⟩, ⟨.scaleZ, 3, [⟨0, 9, 0⟩]⟩] := by
      have hs : sumNodes [⟨0, 4, 0⟩] [⟨0, 5, 0⟩] = some [⟨0, 9, 0⟩] := by
        simp only [sumNodes, List.length_singleton, if_true]
        rw [sumLoop_none _ _ rfl]
        norm_num
      have hx : ¬ opsAreXyz .scaleX .scaleX .scaleY := by unfold opsAreXyz; decide +kernel
      have e1 : ¬ OpType.scaleZ = .scaleY := by simp
      have e2 : ¬ OpType.scaleY = .scaleX := by simp
      have e3 : ¬ OpType.scaleZ = .scaleX := by simp
      norm_num [pruneLoop, pruneStep, collapseScale, uniformScaleChannels, sumWithLater, summableChannel, dropDefault, isDefaultValue,
        defaultOpValue, OpType.isScale, Tolerances.forOp, OpType.isRotate, OpType.isTranslate, hs, hx, allEqual, threeEqual, equalNodes,
        e1, e2, e3]
    have h2 : pruneLoop ⟨1 / 10, 1 / 10, 1 / 10, 1 / 10, 1 / 10⟩ false 3
        [⟨.scaleX, 0, [⟨0, 9, 0⟩]⟩, ⟨.scaleY, 2, [⟨0, 9, 0⟩]⟩, ⟨.scaleZ, 3, [⟨0, 9, 0⟩]⟩] = some [⟨.scaleUniformly, 3, [⟨0, 9, 0⟩]⟩] := by
      have hx : opsAreXyz .scaleX .scaleY .scaleZ := by unfold opsAreXyz; decide +kernel
      have e1 : ¬ OpType.scaleZ = .scaleY := by simp
      have e2 : ¬ OpType.scaleY = .scaleX := by simp
      have e3 : ¬ OpType.scaleZ = .scaleX := by simp
      norm_num [pruneLoop, pruneStep, collapseScale, uniformScaleChannels, sumWithLater, summableChannel, dropDefault, isDefaultValue,
        defaultOpValue, OpType.isScale, Tolerances.forOp, OpType.isRotate, OpType.isTranslate, hx, allEqual, threeEqual, equalNodes,
        derivativeAngle, opValue, e1, e2, e3]
    unfold pruneChannels
    simp only [List.length_cons, List.length_nil]
    rw [h1, h2]
    dsimp only
    exact ⟨congrArg some (sort_sorted hsort (by simp)), congrArg some (sort_sorted hsort (by simp))⟩

/-- The hypotheses of `C77_prune_again` are met by a bone with two translations along x, one along y with the id of neither, a rotation and
another translation along x. -/
example : ∃ (sort : List Channel → List Channel) (chs : List Channel), Sorts sort ∧ chs.length = 5 ∧ (∀ c ∈ chs, ChannelOk (fun _ => (0, 100)) 100 c) ∧
    chs.Pairwise PairOk ∧ IdsOk chs := by
  refine ⟨List.insertionSort (fun c d : Channel => c.id ≤ d.id), [⟨.translateX, 0, [⟨0, 1, 0⟩, ⟨100, 2, 0⟩]⟩, ⟨.translateY, 1, [⟨0, 5, 0⟩]⟩,
    ⟨.translateX, 0, [⟨0, 7, 0⟩]⟩, ⟨.rotateZ, 3, [⟨0, 1, 0⟩]⟩, ⟨.translateX, 4, [⟨0, 7, 0⟩]⟩], ?_, rfl, ?_, ?_, ?_⟩
  · intro l
    exact ⟨List.perm_insertionSort _ l, (List.pairwise_insertionSort (fun c d : Channel => c.id ≤ d.id) l)⟩
  · intro c hc
    simp only [List.mem_cons, List.not_mem_nil, or_false] at hc
    rcases hc with rfl | rfl | rfl | rfl | rfl
    · exact ⟨by simp [Supported, OpType.isTranslate], ⟨0, 100, by simp [Spans, kinked_pair], by simp⟩, by simp [IsXyz]⟩
    · exact ⟨by simp [Supported, OpType.isTranslate], ⟨0, 100, by simp [Spans], by simp⟩, by simp [IsXyz]⟩
    · exact ⟨by simp [Supported, OpType.isTranslate], ⟨0, 100, by simp [Spans], by simp⟩, by simp [IsXyz]⟩
    · exact ⟨by simp [Supported, OpType.isRotate], ⟨0, 100, by simp [Spans], by simp⟩, by simp [IsXyz]⟩
    · exact ⟨by simp [Supported, OpType.isTranslate], ⟨0, 100, by simp [Spans], by simp⟩, by simp [IsXyz]⟩
  · simp [PairOk, IsXyz, opValue, OpType.isTranslate, OpType.isScale]
  · intro c hc d hd
    simp only [List.mem_cons, List.not_mem_nil, or_false] at hc hd
    rcases hc with rfl | rfl | rfl | rfl | rfl <;> rcases hd with rfl | rfl | rfl | rfl | rfl <;> simp [OpType.isTranslate]

end
end Motive.Pipeline
