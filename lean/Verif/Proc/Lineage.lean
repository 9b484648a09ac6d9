import Verif.Proc.Vector

/-!
# The life of a motivator (C90)

What a motivator reads after any program, told without slots, indices or processors: follow the motivator back through moves and
clones to the call that initialised it, and replay, for each dimension by itself, the setters and frames met on the way.

The model is that of `Verif.Proc.Vector`; `Life` is the specification.
-/

namespace Motive.Proc.Vector

variable {δ κ τ β : Type}

/-- What happened to a motivator since `start` was put into it: setters, with an argument per dimension, and frames. -/
structure Life (δ κ τ : Type) where
  proc : ProcId
  start : List δ
  events : List (List κ ⊕ τ)

/-- One more event. -/
def Life.add (L : Life δ κ τ) (e : List κ ⊕ τ) : Life δ κ τ := { L with events := L.events ++ [e] }

/-- After the calls `h`, latest first: does processor `p` exist, and can it clone? -/
def supports (p : ProcId) : List (Call δ κ τ) → Option Bool
  | [] => none
  | .create q _ cl :: h => if q = p then (supports p h).or (some cl) else supports p h
  | .destroyProc q :: h => if q = p then none else supports p h
  | _ :: h => supports p h

/-- The life of motivator `m` after the calls `h`, latest first; `none` when it is not valid. -/
def life : List (Call δ κ τ) → MotId → Option (Life δ κ τ)
  | [], _ => none
  | .create .. :: h, m => life h m
  | .initialize m' p vals :: h, m => if m' = m then some ⟨p, vals, []⟩ else life h m
  | .invalidate m' :: h, m => if m' = m then none else life h m
  | .moveAssign dst src :: h, m => if src = m then none else if dst = m then life h src else life h m
  | .moveConstruct dst src :: h, m => if src = m then none else if dst = m then life h src else life h m
  | .cloneFrom dst src :: h, m =>
    if dst = m then
      match src with
      | none => none
      | some src => if src = m then none else (life h src).filter fun L => supports L.proc h == some true
    else life h m
  | .set m' args :: h, m => if m' = m then (life h m).map fun L => L.add (.inl args) else life h m
  | .frame p t :: h, m => (life h m).map fun L => if L.proc = p then L.add (.inr t) else L
  | .destroyProc p :: h, m => (life h m).filter fun L => L.proc ≠ p

/-- The events of dimension `k`. -/
def eventsOf (k : Nat) (es : List (List κ ⊕ τ)) : List (κ ⊕ τ) :=
  es.filterMap fun e => match e with
    | .inl args => (args[k]?).map .inl
    | .inr t => some (.inr t)

/-- What the slot does in an event. -/
def event (M : Machine δ κ τ) (d : δ) : κ ⊕ τ → Option δ
  | .inl a => M.cmd a d
  | .inr t => M.frame t d

/-- What the slot does in a sequence of events. -/
def replay (M : Machine δ κ τ) (d : δ) (es : List (κ ⊕ τ)) : Option δ := es.foldlM (event M) d

/-- `l` is what the life `L` leads to, dimension by dimension. -/
def Life.LeadsTo (M : Machine δ κ τ) (L : Life δ κ τ) (l : List δ) : Prop :=
  l.length = L.start.length ∧
  ∀ k d, L.start[k]? = some d → ∃ d', replay M d (eventsOf k L.events) = some d' ∧ l[k]? = some d'

theorem eventsOf_add (k : Nat) (es : List (List κ ⊕ τ)) (e : List κ ⊕ τ) :
    eventsOf k (es ++ [e]) = eventsOf k es ++ eventsOf k [e] := by
  simp [eventsOf, List.filterMap_append]

theorem replay_append (M : Machine δ κ τ) (d : δ) (a b : List (κ ⊕ τ)) :
    replay M d (a ++ b) = (replay M d a).bind fun d' => replay M d' b := by
  simp only [replay, List.foldlM_append]
  rfl

/-- The abstract values agree with the life. -/
def Told (M : Machine δ κ τ) (v : Option (ProcId × List δ)) (L : Option (Life δ κ τ)) : Prop :=
  match L with
  | none => v = none
  | some L => ∃ l, v = some (L.proc, l) ∧ L.LeadsTo M l

theorem Told.vals_none {M : Machine δ κ τ} {v : Option (ProcId × List δ)} (h : Told M v none) : v = none := h

theorem leadsTo_set {M : Machine δ κ τ} {L : Life δ κ τ} {l l' : List δ} {args : List κ} (h : L.LeadsTo M l)
    (hc : cmds M args l = some l') : (L.add (.inl args)).LeadsTo M l' := by
  obtain ⟨h1, h2⟩ := h
  have hlen := cmds_length hc
  refine ⟨by simp [Life.add, hlen.2, h1], fun k d hd => ?_⟩
  obtain ⟨d1, e1, e2⟩ := h2 k d hd
  have hk : k < args.length := by
    rw [hlen.1]; exact (List.getElem?_eq_some_iff.mp e2).1
  obtain ⟨d2, e3, e4⟩ := cmds_get hc (List.getElem?_eq_getElem hk) e2
  refine ⟨d2, ?_, e4⟩
  simp only [Life.add]
  rw [eventsOf_add, replay_append, e1]
  simp [eventsOf, List.getElem?_eq_getElem hk, replay, event, e3]

theorem leadsTo_frame {M : Machine δ κ τ} {L : Life δ κ τ} {l : List δ} {t : τ} (h : L.LeadsTo M l)
    (hf : ∀ x ∈ l, (M.frame t x).isSome) : (L.add (.inr t)).LeadsTo M (l.map fun x => (M.frame t x).getD x) := by
  obtain ⟨h1, h2⟩ := h
  refine ⟨by simp [Life.add, h1], fun k d hd => ?_⟩
  obtain ⟨d1, e1, e2⟩ := h2 k d hd
  obtain ⟨d2, e3⟩ := Option.isSome_iff_exists.mp (hf d1 (List.mem_of_getElem? e2))
  refine ⟨d2, ?_, by simp [e2, e3]⟩
  simp only [Life.add]
  rw [eventsOf_add, replay_append, e1]
  simp [eventsOf, replay, event, e3]

/-- One call on both sides. -/
theorem told_step {M : Machine δ κ τ} {h : List (Call δ κ τ)} {s t : Abs δ} {c : Call δ κ τ}
    (hp : ∀ p, s.procs p = supports p h) (hv : ∀ m, Told M (s.vals m) (life h m)) (hs : absCall M c s = some t) :
    (∀ p, t.procs p = supports p (c :: h)) ∧ ∀ m, Told M (t.vals m) (life (c :: h) m) := by
  match c with
  | .create p d cl =>
    simp only [absCall, absStep, Option.some.injEq] at hs
    subst hs
    constructor
    · intro q
      simp only [supports, ← hp]
      by_cases hq : p = q
      · subst hq
        cases hx : s.procs p <;> simp [hx]
      · have : q ≠ p := fun e => hq e.symm
        split <;> simp [*]
    · intro m
      simp only [life]
      split <;> exact hv m
  | .initialize m' p vals =>
    simp only [absCall] at hs
    split at hs
    · cases hs
      refine ⟨fun q => by simp [supports, Abs.set, hp], fun m => ?_⟩
      simp only [life, Abs.set]
      by_cases hm : m' = m
      · subst hm
        simp only [if_true]
        exact ⟨vals, rfl, rfl, fun k d hd => ⟨d, rfl, hd⟩⟩
      · rw [if_neg (fun e => hm e.symm), if_neg hm]
        exact hv m
    · cases hs
  | .invalidate m' =>
    simp only [absCall, absStep, Option.some.injEq] at hs
    subst hs
    refine ⟨fun q => by simp [supports, Abs.set, hp], fun m => ?_⟩
    simp only [life, Abs.set]
    by_cases hm : m' = m
    · subst hm; simp [Told]
    · rw [if_neg (fun e => hm e.symm), if_neg hm]
      exact hv m
  | .moveAssign dst src =>
    simp only [absCall, absStep, Option.some.injEq] at hs
    by_cases hds : dst = src
    · subst hds
      simp only [if_true] at hs
      subst hs
      refine ⟨fun q => by simp [supports, Abs.set, hp], fun m => ?_⟩
      simp only [life, Abs.set]
      by_cases hm : dst = m
      · subst hm; simp [Told]
      · rw [if_neg (fun e => hm e.symm), if_neg hm, if_neg hm]
        exact hv m
    · rw [if_neg hds] at hs
      subst hs
      refine ⟨fun q => by simp [supports, Abs.set, hp], fun m => ?_⟩
      simp only [life, Abs.set]
      by_cases hm : src = m
      · subst hm; simp [Told]
      · rw [if_neg (fun e => hm e.symm), if_neg hm]
        by_cases hm2 : dst = m
        · subst hm2; simp only [if_true]; exact hv src
        · rw [if_neg (fun e => hm2 e.symm), if_neg hm2]
          exact hv m
  | .moveConstruct dst src =>
    simp only [absCall] at hs
    split at hs
    · cases hs
      refine ⟨fun q => by simp [supports, Abs.set, hp], fun m => ?_⟩
      simp only [life, Abs.set]
      by_cases hm : src = m
      · subst hm; simp [Told]
      · rw [if_neg (fun e => hm e.symm), if_neg hm]
        by_cases hm2 : dst = m
        · subst hm2; simp only [if_true]; exact hv src
        · rw [if_neg (fun e => hm2 e.symm), if_neg hm2]
          exact hv m
    · cases hs
  | .cloneFrom dst none =>
    simp only [absCall, absStep, Option.some.injEq] at hs
    subst hs
    refine ⟨fun q => by simp [supports, Abs.set, hp], fun m => ?_⟩
    simp only [life, Abs.set]
    by_cases hm : dst = m
    · subst hm; simp [Told]
    · rw [if_neg (fun e => hm e.symm), if_neg hm]
      exact hv m
  | .cloneFrom dst (some src) =>
    simp only [absCall, absStep, Option.some.injEq] at hs
    by_cases hds : dst = src
    · subst hds
      simp only [if_true] at hs
      subst hs
      refine ⟨fun q => by simp [supports, Abs.set, hp], fun m => ?_⟩
      simp only [life, Abs.set]
      by_cases hm : dst = m
      · subst hm; simp [Told]
      · rw [if_neg (fun e => hm e.symm), if_neg hm]
        exact hv m
    · rw [if_neg hds] at hs
      have hsrc := hv src
      have other : ∀ x m, dst ≠ m → Told M ((s.set dst x).vals m) (life h m) := by
        intro x m hm
        simp only [Abs.set]
        rw [if_neg (fun e => hm e.symm)]
        exact hv m
      cases hL : life h src with
      | none =>
        rw [hL] at hsrc
        rw [Told.vals_none hsrc] at hs
        subst hs
        refine ⟨fun q => by simp [supports, Abs.set, hp], fun m => ?_⟩
        simp only [life]
        by_cases hm : dst = m
        · subst hm; rw [if_pos rfl, if_neg (fun e => hds e.symm), hL]; simp [Told, Abs.set]
        · rw [if_neg hm]; exact other _ m hm
      | some L =>
        rw [hL] at hsrc
        obtain ⟨l, h1, h2⟩ := hsrc
        rw [h1] at hs
        dsimp only at hs
        split at hs
        · rename_i hc
          subst hs
          refine ⟨fun q => by simp [supports, Abs.set, hp], fun m => ?_⟩
          simp only [life]
          by_cases hm : dst = m
          · subst hm
            rw [if_pos rfl, if_neg (fun e => hds e.symm), hL]
            rw [hp] at hc
            simp only [Option.filter, hc, Told, Abs.set]
            exact ⟨l, by simp, h2⟩
          · rw [if_neg hm]; exact other _ m hm
        · rename_i hc
          subst hs
          refine ⟨fun q => by simp [supports, Abs.set, hp], fun m => ?_⟩
          simp only [life]
          by_cases hm : dst = m
          · subst hm
            rw [if_pos rfl, if_neg (fun e => hds e.symm), hL]
            rw [hp] at hc
            simp [Option.filter, hc, Told, Abs.set]
          · rw [if_neg hm]; exact other _ m hm
  | .set m' args =>
    simp only [absCall, Option.bind_eq_some_iff, Option.map_eq_some_iff] at hs
    obtain ⟨x, hx, l', hc, rfl⟩ := hs
    refine ⟨fun q => by simp [supports, Abs.set, hp], fun m => ?_⟩
    simp only [life, Abs.set]
    by_cases hm : m' = m
    · subst hm
      simp only [if_true]
      have hsrc := hv m'
      cases hL : life h m' with
      | none => rw [hL] at hsrc; rw [Told.vals_none hsrc] at hx; cases hx
      | some L =>
        rw [hL] at hsrc
        obtain ⟨l, h1, h2⟩ := hsrc
        rw [h1] at hx
        cases hx
        exact ⟨l', rfl, leadsTo_set h2 hc⟩
    · rw [if_neg (fun e => hm e.symm), if_neg hm]
      exact hv m
  | .frame p ft =>
    simp only [absCall] at hs
    split at hs
    · rename_i hc
      cases hs
      simp only [absStep, hc.1, if_true]
      refine ⟨fun q => by simp [supports, hp], fun m => ?_⟩
      simp only [life]
      have hm := hv m
      cases hL : life h m with
      | none => rw [hL] at hm; rw [Told.vals_none hm]; rfl
      | some L =>
        rw [hL] at hm
        obtain ⟨l, h1, h2⟩ := hm
        rw [h1]
        simp only [Option.map_some]
        by_cases hpp : L.proc = p
        · subst hpp
          simp only [if_true]
          exact ⟨_, rfl, leadsTo_frame h2 (hc.2 m l h1)⟩
        · simp only [if_neg hpp]
          exact ⟨l, rfl, h2⟩
    · cases hs
  | .destroyProc p =>
    simp only [absCall] at hs
    split at hs
    · rename_i hc
      cases hs
      simp only [absStep, hc, if_true]
      constructor
      · intro q
        simp only [supports, ← hp]
        by_cases hq : p = q
        · simp [hq]
        · have : q ≠ p := fun e => hq e.symm
          simp [hq, this]
      · intro m
        simp only [life]
        have hm := hv m
        cases hL : life h m with
        | none => rw [hL] at hm; rw [Told.vals_none hm]; rfl
        | some L =>
          rw [hL] at hm
          obtain ⟨l, h1, h2⟩ := hm
          rw [h1]
          by_cases hpp : L.proc = p
          · simp [Option.filter, hpp, Told]
          · simp only [Option.filter, ne_eq, hpp, not_false_eq_true, decide_true, if_true]
            exact ⟨l, rfl, h2⟩
    · cases hs

theorem told_run {M : Machine δ κ τ} : ∀ (h : List (Call δ κ τ)) {s : Abs δ}, absRunFrom M Abs.empty h.reverse = some s →
    (∀ p, s.procs p = supports p h) ∧ ∀ m, Told M (s.vals m) (life h m)
  | [], s, hs => by
    cases hs
    exact ⟨fun _ => rfl, fun _ => rfl⟩
  | c :: h, s, hs => by
    rw [List.reverse_cons, absRunFrom_append, Option.bind_eq_some_iff] at hs
    obtain ⟨t, h1, h2⟩ := hs
    obtain ⟨h3, h4⟩ := told_run h h1
    refine told_step h3 h4 ?_
    simpa [absRunFrom] using h2

/-- After any program, a motivator is valid exactly when its life says so; then its values, and everything else read from its
slots, are what its start values become, dimension by dimension, in the events of its life. -/
theorem C90_life (M : Machine δ κ τ) {cs : List (Call δ κ τ)} {w : World δ} (h : run M cs = some w) (m : MotId) :
    (life cs.reverse m = none → w.valid m = false ∧ ∀ g : δ → β, gather g w m = none) ∧
    ∀ L, life cs.reverse m = some L →
      w.valid m = true ∧ w.dimensions m = some L.start.length ∧
      ∀ g : δ → β, ∃ l, gather g w m = some l ∧ l.length = L.start.length ∧
        ∀ k d, L.start[k]? = some d → ∃ d', replay M d (eventsOf k L.events) = some d' ∧ l[k]? = some (g d') := by
  obtain ⟨hw, ha⟩ := (run_iff M cs).1 w h
  have ht := (told_run cs.reverse (by simpa using ha)).2 m
  have hval : w.valid m = (w.view.vals m).isSome := by
    have := dimensions_eq hw m
    cases hv : w.view.vals m with
    | none => simpa [World.valid] using (view_none_iff hw).mp hv
    | some x =>
      obtain ⟨pr, pre, post, h1, -⟩ := slots hw (p := x.1) (l := x.2) hv
      simp [World.valid, h1]
  constructor
  · intro hL
    rw [hL] at ht
    have := Told.vals_none ht
    exact ⟨by rw [hval, this]; rfl, fun g => by rw [gather_eq hw, this]; rfl⟩
  · intro L hL
    rw [hL] at ht
    obtain ⟨l, h1, h2, h3⟩ := ht
    refine ⟨by rw [hval, h1]; rfl, by rw [dimensions_eq hw, h1]; simp [h2], fun g => ⟨l.map g, by rw [gather_eq hw, h1]; rfl,
      by simp [h2], fun k d hd => ?_⟩⟩
    obtain ⟨d', e1, e2⟩ := h3 k d hd
    exact ⟨d', e1, by simp [e2]⟩

/-- Nothing else matters: in two programs in which the motivators `m` and `m'` have the same life, the same is read from them,
whatever other motivators there are and wherever the slots have been moved. -/
theorem C90_same_life (M : Machine δ κ τ) {cs cs' : List (Call δ κ τ)} {w w' : World δ} (h : run M cs = some w)
    (h' : run M cs' = some w') {m m' : MotId} {L L' : Life δ κ τ} (hL : life cs.reverse m = some L)
    (hL' : life cs'.reverse m' = some L') (hs : L.start = L'.start) (he : L.events = L'.events) (g : δ → β) :
    ∃ l, gather g w m = some l ∧ gather g w' m' = some l := by
  obtain ⟨-, -, h1⟩ := (C90_life (β := β) M h m).2 L hL
  obtain ⟨-, -, h2⟩ := (C90_life (β := β) M h' m').2 L' hL'
  obtain ⟨l, e1, e2, e3⟩ := h1 g
  obtain ⟨l', f1, f2, f3⟩ := h2 g
  refine ⟨l, e1, ?_⟩
  rw [f1]
  congr 1
  refine List.ext_getElem? fun k => ?_
  by_cases hk : k < L.start.length
  · obtain ⟨d1, a1, a2⟩ := e3 k _ (List.getElem?_eq_getElem hk)
    obtain ⟨d2, b1, b2⟩ := f3 k (L.start[k]) (by rw [← hs]; exact List.getElem?_eq_getElem hk)
    rw [← he, a1] at b1
    cases b1
    rw [a2, b2]
  · rw [List.getElem?_eq_none (by rw [f2, ← hs]; omega), List.getElem?_eq_none (by rw [e2]; omega)]

/-- The program puts only slots with `P` into motivators, and passes only `Q` to setters and `R` to frames. -/
def Call.Keeps (P : δ → Prop) (Q : κ → Prop) (R : τ → Prop) : Call δ κ τ → Prop
  | .initialize _ _ vals => ∀ d ∈ vals, P d
  | .set _ args => ∀ a ∈ args, Q a
  | .frame _ t => R t
  | _ => True

/-- All slots of motivators have `P`. -/
theorem keeps_step {M : Machine δ κ τ} {P : δ → Prop} {Q : κ → Prop} {R : τ → Prop}
    (hcmd : ∀ a d d', P d → Q a → M.cmd a d = some d' → P d') (hframe : ∀ t d d', P d → R t → M.frame t d = some d' → P d')
    {s t : Abs δ} {c : Call δ κ τ} (hc : c.Keeps P Q R) (hs : ∀ m p l, s.vals m = some (p, l) → ∀ d ∈ l, P d)
    (h : absCall M c s = some t) : ∀ m p l, t.vals m = some (p, l) → ∀ d ∈ l, P d := by
  have hset : ∀ m' v, (∀ p l, v = some (p, l) → ∀ d ∈ l, P d) → ∀ s' : Abs δ,
      (∀ m p l, s'.vals m = some (p, l) → ∀ d ∈ l, P d) → ∀ m p l, (s'.set m' v).vals m = some (p, l) → ∀ d ∈ l, P d := by
    intro m' v hv s' hs' m p l hm
    simp only [Abs.set] at hm
    split at hm
    · exact hv p l hm
    · exact hs' m p l hm
  match c with
  | .create p d cl =>
    simp only [absCall, absStep, Option.some.injEq] at h
    subst h
    split <;> exact hs
  | .initialize m' p vals =>
    simp only [absCall] at h
    split at h
    · cases h
      exact hset _ _ (fun p l e => by cases e; exact hc) _ hs
    · cases h
  | .invalidate m' =>
    simp only [absCall, absStep, Option.some.injEq] at h
    subst h
    exact hset _ _ (fun p l e => by cases e) _ hs
  | .moveAssign dst src =>
    simp only [absCall, absStep, Option.some.injEq] at h
    subst h
    split
    · exact hset _ _ (fun p l e => by cases e) _ hs
    · exact hset _ _ (fun p l e => by cases e) _ (hset _ _ (fun p l e => hs src p l e) _ hs)
  | .moveConstruct dst src =>
    simp only [absCall] at h
    split at h
    · cases h
      exact hset _ _ (fun p l e => by cases e) _ (hset _ _ (fun p l e => hs src p l e) _ hs)
    · cases h
  | .cloneFrom dst none =>
    simp only [absCall, absStep, Option.some.injEq] at h
    subst h
    exact hset _ _ (fun p l e => by cases e) _ hs
  | .cloneFrom dst (some src) =>
    simp only [absCall, absStep, Option.some.injEq] at h
    subst h
    split
    · exact hset _ _ (fun p l e => by cases e) _ hs
    · split
      · exact hset _ _ (fun p l e => by cases e) _ hs
      · rename_i p l hv
        split
        · exact hset _ _ (fun p' l' e => by cases e; exact hs src p l hv) _ hs
        · exact hset _ _ (fun p l e => by cases e) _ hs
  | .set m' args =>
    simp only [absCall, Option.bind_eq_some_iff, Option.map_eq_some_iff] at h
    obtain ⟨x, hx, l', hc', rfl⟩ := h
    refine hset _ _ (fun p l e => ?_) _ hs
    cases e
    intro d hd
    obtain ⟨k, hk, rfl⟩ := List.getElem_of_mem hd
    have hlen := cmds_length hc'
    have hk1 : k < args.length := by omega
    have hk2 : k < x.2.length := by omega
    obtain ⟨d', e1, e2⟩ := cmds_get hc' (List.getElem?_eq_getElem hk1) (List.getElem?_eq_getElem hk2)
    rw [List.getElem?_eq_getElem hk] at e2
    cases e2
    exact hcmd _ _ _ (hs m' x.1 x.2 hx _ (List.getElem_mem hk2)) (hc _ (List.getElem_mem hk1)) e1
  | .frame p ft =>
    simp only [absCall] at h
    split at h
    · rename_i hok
      cases h
      simp only [absStep, hok.1, if_true]
      intro m q l hm
      simp only [Option.map_eq_some_iff] at hm
      obtain ⟨x, hx, e⟩ := hm
      split at e
      · rename_i hp
        cases e
        intro d hd
        obtain ⟨d0, h0, rfl⟩ := List.mem_map.mp hd
        have hx' : s.vals m = some (p, x.2) := by rw [hx, ← hp]
        obtain ⟨d1, h1⟩ := Option.isSome_iff_exists.mp (hok.2 m x.2 hx' d0 h0)
        simp only [h1, Option.getD_some]
        exact hframe ft d0 d1 (hs m _ _ hx' d0 h0) hc h1
      · subst e
        exact hs m _ _ hx
    · cases h
  | .destroyProc p =>
    simp only [absCall] at h
    split at h
    · rename_i hok
      cases h
      simp only [absStep, hok, if_true]
      intro m q l hm
      rw [Option.filter_eq_some_iff] at hm
      exact hs m q l hm.1
    · cases h

theorem keeps_run {M : Machine δ κ τ} {P : δ → Prop} {Q : κ → Prop} {R : τ → Prop}
    (hcmd : ∀ a d d', P d → Q a → M.cmd a d = some d' → P d') (hframe : ∀ t d d', P d → R t → M.frame t d = some d' → P d') :
    ∀ {cs : List (Call δ κ τ)} {s t : Abs δ}, (∀ c ∈ cs, c.Keeps P Q R) →
    (∀ m p l, s.vals m = some (p, l) → ∀ d ∈ l, P d) → absRunFrom M s cs = some t →
    ∀ m p l, t.vals m = some (p, l) → ∀ d ∈ l, P d
  | [], s, t, _, hs, h => by cases h; exact hs
  | c :: cs, s, t, hc, hs, h => by
    simp only [absRunFrom, List.foldlM_cons] at h
    cases h1 : absCall M c s with
    | none => rw [h1] at h; cases h
    | some s1 =>
      rw [h1] at h
      exact keeps_run hcmd hframe (fun c' h' => hc c' (by simp [h'])) (keeps_step hcmd hframe (hc c (by simp)) hs h1) h

theorem cmds_total {M : Machine δ κ τ} {P : δ → Prop} {Q : κ → Prop} (hcmd : ∀ a d, P d → Q a → ∃ d', M.cmd a d = some d') :
    ∀ {args : List κ} {l : List δ}, args.length = l.length → (∀ a ∈ args, Q a) → (∀ d ∈ l, P d) → ∃ l', cmds M args l = some l'
  | [], [], _, _, _ => ⟨[], rfl⟩
  | a :: args, d :: l, hlen, ha, hd => by
    obtain ⟨d', h1⟩ := hcmd a d (hd d (by simp)) (ha a (by simp))
    obtain ⟨l', h2⟩ := cmds_total hcmd (args := args) (l := l) (by simpa using hlen) (fun x hx => ha x (by simp [hx]))
      (fun x hx => hd x (by simp [hx]))
    exact ⟨d' :: l', by simp [cmds, h1, h2]⟩

/-- What holds of one slot under setters and frames holds of all motivators in all programs: if slots with `P` keep it and do not
fail under arguments with `Q` and frames with `R`, then whatever a program does with motivators, everything read comes from
slots with `P`, and no legal call fails. -/
theorem C90_safety (M : Machine δ κ τ) {P : δ → Prop} {Q : κ → Prop} {R : τ → Prop}
    (hcmd : ∀ a d, P d → Q a → ∃ d', M.cmd a d = some d' ∧ P d') (hframe : ∀ t d, P d → R t → ∃ d', M.frame t d = some d' ∧ P d')
    {cs : List (Call δ κ τ)} (hcs : ∀ c ∈ cs, c.Keeps P Q R) {w : World δ} (h : run M cs = some w) :
    (∀ m (g : δ → β) l, gather g w m = some l → ∀ v ∈ l, ∃ d, P d ∧ g d = v) ∧
    ∀ c : Call δ κ τ, c.Keeps P Q R → c.Legal w → ∃ w', call M c w = some w' := by
  obtain ⟨hw, ha⟩ := (run_iff M cs).1 w h
  have hall := keeps_run (M := M) (P := P) (Q := Q) (R := R)
    (fun a d d' hp hq e => by obtain ⟨x, e1, e2⟩ := hcmd a d hp hq; rw [e1] at e; cases e; exact e2)
    (fun a d d' hp hq e => by obtain ⟨x, e1, e2⟩ := hframe a d hp hq; rw [e1] at e; cases e; exact e2)
    hcs (s := Abs.empty) (fun m p l e => by cases e) ha
  constructor
  · intro m g l hg v hv
    rw [gather_eq hw, Option.map_eq_some_iff] at hg
    obtain ⟨x, hx, rfl⟩ := hg
    obtain ⟨d, hd, rfl⟩ := List.mem_map.mp hv
    exact ⟨d, hall m x.1 x.2 hx d hd, rfl⟩
  · intro c hk hl
    have hspec := call_spec M hw c
    have : ∃ t, absCall M c w.view = some t := by
      match c with
      | .create p d cl => exact ⟨_, rfl⟩
      | .initialize m p vals => exact ⟨_, if_pos ⟨by simpa [World.view] using hl.1, hl.2⟩⟩
      | .invalidate m => exact ⟨_, rfl⟩
      | .moveAssign dst src => exact ⟨_, rfl⟩
      | .moveConstruct dst src =>
        refine ⟨_, if_pos ⟨hl.1, (view_none_iff hw).mpr ?_⟩⟩
        simpa [World.valid] using hl.2
      | .cloneFrom dst src => exact ⟨_, rfl⟩
      | .set m args =>
        have hl : w.dimensions m = some args.length := hl
        rw [dimensions_eq hw, Option.map_eq_some_iff] at hl
        obtain ⟨x, hx, he⟩ := hl
        obtain ⟨l', hl'⟩ := cmds_total (fun a d hp hq => (hcmd a d hp hq).imp fun _ e => e.1) he.symm hk (hall m x.1 x.2 hx)
        exact ⟨w.view.set m (some (x.1, l')), by simp only [absCall]; rw [hx]; simp [hl']⟩
      | .frame p t =>
        refine ⟨_, if_pos ⟨?_, fun m l hm x hx => ?_⟩⟩
        · have hl : (w.procs p).isSome = true := hl
          simpa [World.view] using hl
        · obtain ⟨d', e, -⟩ := hframe t x (hall m p l hm x hx) hk
          simp [e]
      | .destroyProc p =>
        refine ⟨_, if_pos ?_⟩
        have hl : (w.procs p).isSome = true := hl
        simpa [World.view] using hl
    obtain ⟨t, ht⟩ := this
    rw [ht] at hspec
    exact hspec.imp fun _ e => e.1

/-- The story of `Verif.Proc.Vector` seen from motivator 11: it was motivator 10 until it was moved. -/
example : life story.reverse 11 = some ⟨0, [1, 2, 3], [.inl [7, 8, 9], .inr 5, .inr 100, .inl [1, 2, 3]]⟩ ∧
    life story.reverse 12 = some ⟨0, [1, 2, 3], [.inl [7, 8, 9], .inr 5, .inr 100]⟩ ∧ life story.reverse 10 = none :=
  ⟨rfl, rfl, rfl⟩

/-- Dimension 1 of it. -/
example : replay counter 2 (eventsOf 1 [.inl [7, 8, 9], .inr 5, .inr 100, .inl [1, 2, 3]]) = some 207 := by decide

end Motive.Proc.Vector
