import Verif.Proc.Partial
import Mathlib.Data.Nat.Pairing

/-!
# Motivators of several dimensions (C89)

Model of the calls of `MotivatorNf` and `MotivatorXfTemplate` (include/motive/vector_motivator.h:26-381) on the processors of
single values, which implement `MotiveProcessorNf` (vector_processor.h:27-126) with one slot per dimension.

What a setter and what a frame do to one slot is a parameter, `Machine`; `Verif.Slot` and `Verif.SplineProc` say what they
do for the processors that exist.
-/

namespace Motive.Proc.Vector

open Motive.Alloc

variable {δ κ τ β : Type}

/-- What the processor does to one slot: `cmd k` for a setter with the argument `k` (the target, the value and velocity with
the shape, the spline with the playback, ...), and `frame t` in `AdvanceFrame`. `none` is a failed assertion. -/
structure Machine (δ κ τ : Type) where
  cmd : κ → δ → Option δ
  frame : τ → δ → Option δ

/-- The loop of a setter over the dimensions (overshoot_processor.cpp:92-109, spring_processor.cpp:71-81,
ease_in_ease_out_processor.cpp:116-135, spline_processor.cpp:89-101): `Data(i)` asserts `ValidIndex(i)`. -/
def setLoop (M : Machine δ κ τ) (valid : Nat → Bool) : Nat → List κ → List δ → Option (List δ)
  | _, [], data => some data
  | i, k :: ks, data =>
    if valid i then
      (data[i]?).bind fun d => (M.cmd k d).bind fun d' => setLoop M valid (i + 1) ks (data.set i d')
    else none

/-- `SetTargets`, `SetTargetWithShape`, `SetSplines`, ... of a motivator (vector_motivator.h:142-219, 360-378) with one argument per
dimension that the caller passes to the processor. A motivator that is not valid has a null processor. -/
def set (M : Machine δ κ τ) (w : World δ) (m : MotId) (ks : List κ) : Option (World δ) :=
  (w.mots m).bind fun pi =>
    (w.procs pi.1).bind fun pr =>
      (setLoop M (pr.validIndex pi.1 w.mots) pi.2 ks pr.data).map fun data =>
        w.setProc pi.1 (some { pr with data := data })

/-- `GatherFloats` (simple_processor_template.h:26-34): `g` of the slots from `i` on. -/
def gatherLoop (g : δ → β) (valid : Nat → Bool) (data : List δ) : Nat → Nat → Option (List β)
  | _, 0 => some []
  | i, n + 1 =>
    if valid i then (data[i]?).bind fun d => (gatherLoop g valid data (i + 1) n).map (g d :: ·) else none

/-- `Values`, `Velocities`, `Directions`, `TargetValues`, `TargetVelocities`, `Differences` (vector_motivator.h:93-108, 299-343). -/
def gather (g : δ → β) (w : World δ) (m : MotId) : Option (List β) :=
  (w.mots m).bind fun pi =>
    (w.procs pi.1).bind fun pr =>
      (pr.dimensions pi.2).bind fun n => gatherLoop g (pr.validIndex pi.1 w.mots) pr.data pi.2 n

/-- `TargetTime` (vector_motivator.h:112-114, simple_processor_template.h:72-80): `g` is `SimpleTargetTime`, and
`MotiveTime` is a 32 bit `int`. -/
def targetTime (g : δ → ℤ) (w : World δ) (m : MotId) : Option ℤ :=
  (gather g w m).map fun l => l.foldl max (-2147483648)

/-- `MotiveShape` and `SplineTime` (vector_motivator.h:117-128): `g` of the first slot. -/
def first (g : δ → β) (w : World δ) (m : MotId) : Option β :=
  (w.mots m).bind fun pi =>
    (w.procs pi.1).bind fun pr =>
      if pr.validIndex pi.1 w.mots pi.2 then (pr.data[pi.2]?).map g else none

/-- API calls. -/
inductive Call (δ κ τ : Type) where
  /-- the engine creates a processor (first use of a type) -/
  | create (p : ProcId) (dflt : δ) (cloning : Bool)
  /-- `Initialize(init, engine, dimensions)` -/
  | initialize (m : MotId) (p : ProcId) (vals : List δ)
  /-- `Invalidate()` or the destructor -/
  | invalidate (m : MotId)
  /-- `dst = std::move(src)` -/
  | moveAssign (dst src : MotId)
  /-- `Motivator dst(std::move(src))` -/
  | moveConstruct (dst src : MotId)
  /-- `dst.CloneFrom(src)`, `none` for a null pointer -/
  | cloneFrom (dst : MotId) (src : Option MotId)
  /-- a setter, with one argument per dimension -/
  | set (m : MotId) (args : List κ)
  /-- `AdvanceFrame` of a processor -/
  | frame (p : ProcId) (t : τ)
  /-- destruction of a processor -/
  | destroyProc (p : ProcId)

/-- One call. What the API forbids has no outcome: no processor, no dimensions, constructing over a live object, an array of
another length than `Dimensions()`. -/
def call (M : Machine δ κ τ) (c : Call δ κ τ) (w : World δ) : Option (World δ) :=
  match c with
  | .create p d cl => step (.create p d cl) w
  | .initialize m p vals => if (w.procs p).isSome ∧ 0 < vals.length then w.initialize m p vals else none
  | .invalidate m => w.invalidate m
  | .moveAssign dst src => w.moveAssign dst src
  | .moveConstruct dst src => if dst ≠ src ∧ w.valid dst = false then w.moveConstruct dst src else none
  | .cloneFrom dst src => w.cloneFrom dst src
  | .set m args => if w.dimensions m = some args.length then Vector.set M w m args else none
  | .frame p t => if (w.procs p).isSome then w.advanceM p (M.frame t) else none
  | .destroyProc p => if (w.procs p).isSome then w.destroyProc p else none

/-- Any number of calls. -/
def runFrom (M : Machine δ κ τ) (w : World δ) (cs : List (Call δ κ τ)) : Option (World δ) :=
  cs.foldlM (fun w c => call M c w) w

/-- Any number of calls from the empty program state. -/
def run (M : Machine δ κ τ) (cs : List (Call δ κ τ)) : Option (World δ) := runFrom M World.empty cs

/-! ## The program with one motivator per dimension -/

/-- The motivator for dimension `k` of `m`. -/
def lane (m : MotId) (k : Nat) : MotId := Nat.pair m k

/-- The same call in the program that has a motivator of one dimension for each of the at most `D` dimensions of a motivator. -/
def split (D : Nat) : Call δ κ τ → List (Call δ κ τ)
  | .create p d cl => [.create p d cl]
  | .initialize m p vals => (List.range D).map fun k =>
      match vals[k]? with
      | some v => .initialize (lane m k) p [v]
      | none => .invalidate (lane m k)
  | .invalidate m => (List.range D).map fun k => .invalidate (lane m k)
  | .moveAssign dst src => (List.range D).map fun k => .moveAssign (lane dst k) (lane src k)
  | .moveConstruct dst src => (List.range D).map fun k => .moveConstruct (lane dst k) (lane src k)
  | .cloneFrom dst src => (List.range D).map fun k => .cloneFrom (lane dst k) (src.map fun s => lane s k)
  | .set m args => args.mapIdx fun k a => .set (lane m k) [a]
  | .frame p t => [.frame p t]
  | .destroyProc p => [.destroyProc p]

/-- No motivator of more than `D` dimensions is created. -/
def Call.Within (D : Nat) : Call δ κ τ → Prop
  | .initialize _ _ vals => vals.length ≤ D
  | _ => True

/-- The caller keeps to the API: the processor exists, there is a dimension, the object under construction is not live, the array
has as many elements as the motivator has dimensions. -/
def Call.Legal (w : World δ) : Call δ κ τ → Prop
  | .initialize _ p vals => (w.procs p).isSome ∧ 0 < vals.length
  | .moveConstruct dst src => dst ≠ src ∧ w.valid dst = false
  | .set m args => w.dimensions m = some args.length
  | .frame p _ => (w.procs p).isSome
  | .destroyProc p => (w.procs p).isSome
  | _ => True

/-! ## Calls on what users see -/

/-- A setter on a list of slots. -/
def cmds (M : Machine δ κ τ) : List κ → List δ → Option (List δ)
  | [], [] => some []
  | k :: ks, d :: ds => (M.cmd k d).bind fun d' => (cmds M ks ds).map (d' :: ·)
  | _, _ => none

open Classical in
/-- `call` on `Abs`. -/
noncomputable def absCall (M : Machine δ κ τ) (c : Call δ κ τ) (s : Abs δ) : Option (Abs δ) :=
  match c with
  | .create p d cl => some (absStep (.create p d cl) s)
  | .initialize m p vals => if (s.procs p).isSome ∧ 0 < vals.length then some (s.set m (some (p, vals))) else none
  | .invalidate m => some (absStep (.invalidate m) s)
  | .moveAssign dst src => some (absStep (.moveAssign dst src) s)
  | .moveConstruct dst src =>
    if dst ≠ src ∧ s.vals dst = none then some ((s.set dst (s.vals src)).set src none) else none
  | .cloneFrom dst src => some (absStep (.cloneFrom dst src) s)
  | .set m args => (s.vals m).bind fun x => (cmds M args x.2).map fun l => s.set m (some (x.1, l))
  | .frame p t =>
    if (s.procs p).isSome ∧ ∀ m l, s.vals m = some (p, l) → ∀ x ∈ l, (M.frame t x).isSome then
      some (absStep (.advance p fun x => (M.frame t x).getD x) s)
    else none
  | .destroyProc p => if (s.procs p).isSome then some (absStep (.destroyProc p) s) else none

theorem cmds_length {M : Machine δ κ τ} : ∀ {ks : List κ} {l l' : List δ}, cmds M ks l = some l' →
    ks.length = l.length ∧ l'.length = l.length
  | [], [], l', h => by simp [cmds] at h; simp [h]
  | k :: ks, d :: ds, l', h => by
    simp only [cmds, Option.bind_eq_some_iff, Option.map_eq_some_iff] at h
    obtain ⟨d', -, l2, h2, rfl⟩ := h
    have := cmds_length h2
    simp [this.1, this.2]
  | [], _ :: _, _, h => by simp [cmds] at h
  | _ :: _, [], _, h => by simp [cmds] at h

theorem cmds_get {M : Machine δ κ τ} : ∀ {ks : List κ} {l l' : List δ}, cmds M ks l = some l' →
    ∀ {k : Nat} {a : κ} {d : δ}, ks[k]? = some a → l[k]? = some d → ∃ d', M.cmd a d = some d' ∧ l'[k]? = some d'
  | [], [], l', _, k, a, d, h1, _ => by simp at h1
  | b :: ks, e :: ds, l', h, k, a, d, h1, h2 => by
    simp only [cmds, Option.bind_eq_some_iff, Option.map_eq_some_iff] at h
    obtain ⟨d', hd, l2, h3, rfl⟩ := h
    cases k with
    | zero => simp at h1 h2; subst h1 h2; exact ⟨d', hd, by simp⟩
    | succ k => simpa using cmds_get h3 (by simpa using h1) (by simpa using h2)
  | [], _ :: _, _, h, _, _, _, _, _ => by simp [cmds] at h
  | _ :: _, [], _, h, _, _, _, _, _ => by simp [cmds] at h

theorem cmds_none {M : Machine δ κ τ} : ∀ {ks : List κ} {l : List δ}, ks.length = l.length → cmds M ks l = none →
    ∃ (k : Nat) (a : κ) (d : δ), ks[k]? = some a ∧ l[k]? = some d ∧ M.cmd a d = none
  | [], [], _, h => by simp [cmds] at h
  | b :: ks, e :: ds, hl, h => by
    cases hd : M.cmd b e with
    | none => exact ⟨0, b, e, by simp, by simp, hd⟩
    | some d' =>
      have h3 : cmds M ks ds = none := by
        cases h3 : cmds M ks ds with
        | none => rfl
        | some x => simp [cmds, hd, h3] at h
      obtain ⟨k, a, d, h1, h2, h4⟩ := cmds_none (by simpa using hl) h3
      exact ⟨k + 1, a, d, by simpa using h1, by simpa using h2, h4⟩
  | [], _ :: _, hl, _ => by simp at hl
  | _ :: _, [], hl, _ => by simp at hl

/-- The loop over the slots `l` of a motivator. -/
theorem setLoop_eq (M : Machine δ κ τ) {valid : Nat → Bool} : ∀ {ks : List κ} {l pre post : List δ},
    ks.length = l.length → (∀ k, k < l.length → valid (pre.length + k) = true) →
    setLoop M valid pre.length ks (pre ++ (l ++ post)) = (cmds M ks l).map fun l' => pre ++ (l' ++ post)
  | [], [], pre, post, _, _ => by simp [setLoop, cmds]
  | b :: ks, e :: ds, pre, post, hl, hv => by
    have h0 : valid pre.length = true := by simpa using hv 0 (by simp)
    have hget : (pre ++ (e :: ds ++ post))[pre.length]? = some e := by simp
    simp only [setLoop, h0, if_true, hget, Option.bind_some, cmds]
    cases hd : M.cmd b e with
    | none => simp
    | some d' =>
      have hset : (pre ++ (e :: ds ++ post)).set pre.length d' = (pre ++ [d']) ++ (ds ++ post) := by simp
      have hlen : pre.length + 1 = (pre ++ [d']).length := by simp
      simp only [Option.bind_some, hset]
      rw [hlen, setLoop_eq M (by simpa using hl)]
      · cases cmds M ks ds <;> simp
      · intro k hk
        have := hv (k + 1) (by simpa using hk)
        rw [List.length_append, List.length_singleton, show pre.length + 1 + k = pre.length + (k + 1) by omega]
        exact this
  | [], _ :: _, _, _, hl, _ => by simp at hl
  | _ :: _, [], _, _, hl, _ => by simp at hl

/-- The slots of a motivator in the arrays of its processor. -/
theorem slots {w : World δ} (h : WInv w) {m : MotId} {p : ProcId} {l : List δ} (hv : w.view.vals m = some (p, l)) :
    ∃ pr pre post, w.mots m = some (p, pre.length) ∧ w.procs p = some pr ∧ Live pr.alloc pre.length l.length ∧
      pr.data = pre ++ (l ++ post) ∧ pr.dimensions pre.length = some l.length ∧
      ∀ k, k < l.length → pr.validIndex p w.mots (pre.length + k) = true := by
  obtain ⟨i, n, pr, h1, h2, h3, rfl⟩ := (view_iff h).mp hv
  have hp := h.procs p pr h2
  have hd := hp.dlen
  have hb := Live.block_le h3
  simp only [Proc.pstate] at hd
  have hn : pr.alloc.numIndices = pr.alloc.counts.length := rfl
  have e1 : (pr.data.take i).length = i := by simp; omega
  have e2 : ((pr.data.drop i).take n).length = n := by simp; omega
  refine ⟨pr, pr.data.take i, (pr.data.drop i).drop n, ?_, h2, ?_, ?_, ?_, ?_⟩
  · rw [e1]; exact h1
  · rw [e1, e2]; exact h3
  · rw [List.take_append_drop, List.take_append_drop]
  · rw [e1, e2]; exact countFor_block h3.1
  · rw [e1, e2]; intro k hk; exact hp.validIndex h1 h3 hk

theorem dimensions_eq {w : World δ} (h : WInv w) (m : MotId) :
    w.dimensions m = (w.view.vals m).map fun x => x.2.length := by
  cases hv : w.view.vals m with
  | none => simp [World.dimensions, (view_none_iff h).mp hv]
  | some x =>
    obtain ⟨p, l⟩ := x
    obtain ⟨pr, pre, post, h1, h2, -, -, h5, -⟩ := slots h hv
    simp [World.dimensions, h1, h2, h5]

theorem set_spec (M : Machine δ κ τ) {w : World δ} (h : WInv w) {m : MotId} {p : ProcId} {l : List δ} {ks : List κ}
    (hv : w.view.vals m = some (p, l)) (hl : ks.length = l.length) :
    match cmds M ks l with
    | none => Vector.set M w m ks = none
    | some l' => ∃ w', Vector.set M w m ks = some w' ∧ WInv w' ∧ w'.view = w.view.set m (some (p, l')) := by
  obtain ⟨pr, pre, post, h1, h2, h3, h4, h5, h6⟩ := slots h hv
  have hset : Vector.set M w m ks = (cmds M ks l).map fun l' =>
      w.setProc p (some { pr with data := pre ++ (l' ++ post) }) := by
    simp only [Vector.set, h1, h2, Option.bind_some]
    rw [h4, setLoop_eq M hl h6]
    cases cmds M ks l <;> rfl
  rw [hset]
  cases hc : cmds M ks l with
  | none => rfl
  | some l' =>
    have hlen := (cmds_length hc).2
    obtain ⟨g1, g2⟩ := setData_spec h h1 h2 h3 (data' := pre ++ (l' ++ post)) (by rw [h4]; simp [hlen]) (by
      intro k hk
      rw [h4]
      rcases hk with hk | hk
      · rw [List.getElem?_append_left hk, List.getElem?_append_left hk]
      · rw [List.getElem?_append_right (by omega), List.getElem?_append_right (by omega),
          List.getElem?_append_right (by omega), List.getElem?_append_right (by omega), hlen])
    refine ⟨_, rfl, g1, ?_⟩
    rw [g2]
    congr 3
    rw [← hlen]; simp

theorem advanceM_spec {w : World δ} (hw : WInv w) {p : ProcId} (hp : (w.procs p).isSome) (f : δ → Option δ) :
    ((∃ w', w.advanceM p f = some w') ↔ ∀ m l, w.view.vals m = some (p, l) → ∀ x ∈ l, (f x).isSome) ∧
    ∀ w', w.advanceM p f = some w' →
      WInv w' ∧ w'.view = absStep (.advance p fun x => (f x).getD x) w.view := by
  obtain ⟨pr, hpr⟩ := Option.isSome_iff_exists.mp hp
  obtain ⟨w1, pr1, e1, e2, e3, e4, e5, -⟩ := defragment_spec' hw hpr
  have hM : w.advanceM p f = (pr1.data.mapM f).map fun data => w1.setProc p (some { pr1 with data := data }) := by
    simp [World.advanceM, e1, e4]
  constructor
  · rw [hM, ← e3]
    constructor
    · rintro ⟨w', hw'⟩ m l hv x hx
      obtain ⟨i, n, pr2, h1, h2, -, rfl⟩ := (view_iff e2).mp hv
      rw [e4] at h2; simp at h2; subst h2
      cases hd : pr1.data.mapM f with
      | none => rw [hd] at hw'; simp at hw'
      | some l' => exact mapM_isSome_iff.mp ⟨l', hd⟩ x (List.mem_of_mem_drop (List.mem_of_mem_take hx))
    · intro hall
      obtain ⟨l', hl'⟩ := mapM_isSome_iff.mpr fun x hx => by
        obtain ⟨m, l, hv, hxl⟩ := slot_owner e2 e4 e5 hx
        exact hall m l hv x hxl
      exact ⟨_, by rw [hl']; rfl⟩
  · intro w' hw'
    rw [hM] at hw'
    cases hd : pr1.data.mapM f with
    | none => rw [hd] at hw'; simp at hw'
    | some l' =>
      rw [hd] at hw'
      simp only [Option.map_some, Option.some.injEq] at hw'
      have hadv : w.advance p (fun x => (f x).getD x) = some w' := by
        rw [← hw', mapM_eq_map hd]
        simp [World.advance, e1, e4]
      obtain ⟨w2, f1, f2, f3⟩ := advance_spec hw hp fun x => (f x).getD x
      rw [hadv] at f1
      simp only [Option.some.injEq] at f1
      subst f1
      exact ⟨f2, f3⟩

/-- A call does what `absCall` says. -/
theorem call_spec (M : Machine δ κ τ) {w : World δ} (h : WInv w) (c : Call δ κ τ) :
    match absCall M c w.view with
    | none => call M c w = none
    | some s => ∃ w', call M c w = some w' ∧ WInv w' ∧ w'.view = s := by
  have hps : ∀ p, (w.view.procs p).isSome = (w.procs p).isSome := by intro p; simp [World.view]
  match c with
  | .create p d cl => exact step_spec h (.create p d cl)
  | .initialize m p vals =>
    simp only [absCall, call, hps]
    by_cases hc : (w.procs p).isSome ∧ 0 < vals.length
    · rw [if_pos hc, if_pos hc]
      obtain ⟨w', h1, h2, h3⟩ := step_spec h (.initialize m p vals)
      simp only [step, absStep, hps] at h1 h3
      rw [if_pos hc] at h1 h3
      exact ⟨w', h1, h2, h3⟩
    · rw [if_neg hc, if_neg hc]
  | .invalidate m => exact step_spec h (.invalidate m)
  | .moveAssign dst src => exact step_spec h (.moveAssign dst src)
  | .moveConstruct dst src =>
    simp only [absCall, call, view_none_iff h]
    by_cases hc : dst ≠ src ∧ w.mots dst = none
    · have hc' : dst ≠ src ∧ w.valid dst = false := by simpa [World.valid] using hc
      rw [if_pos hc, if_pos hc']
      obtain ⟨w', h1, h2, h3⟩ := step_spec h (.moveConstruct dst src)
      simp only [step, absStep, view_none_iff h] at h1 h3
      rw [if_pos hc'] at h1
      rw [if_pos hc] at h3
      exact ⟨w', h1, h2, h3⟩
    · have hc' : ¬ (dst ≠ src ∧ w.valid dst = false) := by simpa [World.valid] using hc
      rw [if_neg hc, if_neg hc']
  | .cloneFrom dst src => exact step_spec h (.cloneFrom dst src)
  | .set m args =>
    simp only [absCall, call, dimensions_eq h]
    cases hv : w.view.vals m with
    | none => simp
    | some x =>
      obtain ⟨p, l⟩ := x
      simp only [Option.bind_some, Option.map_some, Option.some.injEq]
      by_cases hl : args.length = l.length
      · rw [if_pos hl.symm]
        have := set_spec M h hv hl
        cases hc : cmds M args l with
        | none => rw [hc] at this; simpa using this
        | some l' => rw [hc] at this; simpa using this
      · rw [if_neg (fun e => hl e.symm)]
        cases hc : cmds M args l with
        | none => simp
        | some l' => exact absurd (cmds_length hc).1 hl
  | .frame p t =>
    simp only [absCall, call, hps]
    by_cases hp : (w.procs p).isSome
    · obtain ⟨h1, h2⟩ := advanceM_spec h hp (M.frame t)
      rw [if_pos hp]
      by_cases ha : ∀ m l, w.view.vals m = some (p, l) → ∀ x ∈ l, (M.frame t x).isSome
      · rw [if_pos ⟨(hps p).trans hp, ha⟩]
        obtain ⟨w', hw'⟩ := h1.mpr ha
        exact ⟨w', hw', h2 w' hw'⟩
      · rw [if_neg (fun e => ha e.2)]
        cases hc : w.advanceM p (M.frame t) with
        | none => rfl
        | some w' => exact absurd (h1.mp ⟨w', hc⟩) ha
    · rw [if_neg (fun e => hp ((hps p).symm.trans e.1)), if_neg hp]
  | .destroyProc p =>
    simp only [absCall, call, hps]
    by_cases hp : (w.procs p).isSome
    · rw [if_pos hp, if_pos hp]
      obtain ⟨w', h1, h2, h3⟩ := step_spec h (.destroyProc p)
      simp only [step] at h1
      rw [if_pos hp] at h1
      exact ⟨w', h1, h2, h3⟩
    · rw [if_neg hp, if_neg hp]

/-- Any number of calls on `Abs`. -/
noncomputable def absRunFrom (M : Machine δ κ τ) (s : Abs δ) (cs : List (Call δ κ τ)) : Option (Abs δ) :=
  cs.foldlM (fun s c => absCall M c s) s

theorem runFrom_spec' (M : Machine δ κ τ) : ∀ (cs : List (Call δ κ τ)) {w : World δ}, WInv w →
    match absRunFrom M w.view cs with
    | none => runFrom M w cs = none
    | some s => ∃ w', runFrom M w cs = some w' ∧ WInv w' ∧ w'.view = s
  | [], w, h => ⟨w, rfl, h, rfl⟩
  | c :: cs, w, h => by
    have h1 := call_spec M h c
    simp only [absRunFrom, runFrom, List.foldlM_cons]
    cases hc : absCall M c w.view with
    | none => rw [hc] at h1; simp only at h1; rw [h1]; rfl
    | some s =>
      rw [hc] at h1
      obtain ⟨w1, e1, e2, rfl⟩ := h1
      rw [e1]
      exact runFrom_spec' M cs e2

/-! ## Lanes -/

/-- Dimension `k` of what a motivator holds, as what a motivator of one dimension holds. -/
def dim (k : Nat) (v : Option (ProcId × List δ)) : Option (ProcId × List δ) :=
  v.bind fun x => (x.2[k]?).map fun d => (x.1, [d])

/-- `s'` is `s` with one motivator per dimension. -/
def Rel (s s' : Abs δ) : Prop := s'.procs = s.procs ∧ ∀ m k, s'.vals (lane m k) = dim k (s.vals m)

theorem lane_inj {m m' : MotId} {k k' : Nat} : lane m k = lane m' k' ↔ m = m' ∧ k = k' := Nat.pair_eq_pair

/-- Calls on the lanes `ks`, one each, which only touch their lane. -/
theorem lanes_fold (M : Machine δ κ τ) (g : Nat → Call δ κ τ) (F : MotId → Nat → Option (ProcId × List δ)) (s0 : Abs δ) :
    ∀ (ks : List Nat), ks.Nodup →
    (∀ k ∈ ks, ∀ s : Abs δ, s.procs = s0.procs → (∀ m, s.vals (lane m k) = s0.vals (lane m k)) →
      ∃ s1, absCall M (g k) s = some s1 ∧ s1.procs = s0.procs ∧ (∀ m, s1.vals (lane m k) = F m k) ∧
        ∀ m j, j ≠ k → s1.vals (lane m j) = s.vals (lane m j)) →
    ∀ s : Abs δ, s.procs = s0.procs → (∀ m, ∀ k ∈ ks, s.vals (lane m k) = s0.vals (lane m k)) →
    ∃ s1, absRunFrom M s (ks.map g) = some s1 ∧ s1.procs = s0.procs ∧
      ∀ m k, s1.vals (lane m k) = if k ∈ ks then F m k else s.vals (lane m k)
  | [], _, _, s, hs, _ => ⟨s, rfl, hs, by simp⟩
  | k :: ks, hnd, hstep, s, hs, hag => by
    obtain ⟨s1, a1, a2, a3, a4⟩ := hstep k (by simp) s hs fun m => hag m k (by simp)
    have hk : k ∉ ks := (List.nodup_cons.mp hnd).1
    obtain ⟨s2, b1, b2, b3⟩ := lanes_fold M g F s0 ks (List.nodup_cons.mp hnd).2
      (fun j hj => hstep j (by simp [hj])) s1 a2 (fun m j hj => by
        rw [a4 m j (by rintro rfl; exact hk hj)]; exact hag m j (by simp [hj]))
    refine ⟨s2, ?_, b2, ?_⟩
    · simp only [absRunFrom, List.map_cons, List.foldlM_cons, a1]
      exact b1
    · intro m j
      rw [b3]
      by_cases hj : j ∈ ks
      · simp [hj]
      · rw [if_neg hj]
        by_cases hjk : j = k
        · subst hjk; simp [a3]
        · rw [a4 m j hjk]; simp [hj, hjk]

theorem sim_lanes (M : Machine δ κ τ) (g : Nat → Call δ κ τ) (n : Nat) {s s' t : Abs δ} (hr : Rel s s')
    (hp : t.procs = s.procs) (hrest : ∀ m k, n ≤ k → dim k (t.vals m) = dim k (s.vals m))
    (hstep : ∀ k, k < n → ∀ u : Abs δ, u.procs = s.procs → (∀ m, u.vals (lane m k) = dim k (s.vals m)) →
      ∃ u1, absCall M (g k) u = some u1 ∧ u1.procs = s.procs ∧ (∀ m, u1.vals (lane m k) = dim k (t.vals m)) ∧
        ∀ m j, j ≠ k → u1.vals (lane m j) = u.vals (lane m j)) :
    ∃ t', absRunFrom M s' ((List.range n).map g) = some t' ∧ Rel t t' := by
  obtain ⟨t', h1, h2, h3⟩ := lanes_fold M g (fun m k => dim k (t.vals m)) s' (List.range n) List.nodup_range
    (by
      intro k hk u hu hul
      rw [List.mem_range] at hk
      obtain ⟨u1, a1, a2, a3, a4⟩ := hstep k hk u (hu.trans hr.1) fun m => (hul m).trans (hr.2 m k)
      exact ⟨u1, a1, a2.trans hr.1.symm, a3, a4⟩) s' rfl (fun _ _ _ => rfl)
  refine ⟨t', h1, h2.trans (hr.1.trans hp.symm), fun m k => ?_⟩
  rw [h3]
  by_cases hk : k < n
  · simp [hk]
  · rw [if_neg (by simpa using hk), hr.2, hrest m k (by omega)]

/-- No motivator has more than `D` dimensions. -/
def Bd (D : Nat) (s : Abs δ) : Prop := ∀ m p l, s.vals m = some (p, l) → l.length ≤ D

theorem Bd.dim_none {D : Nat} {s : Abs δ} (h : Bd D s) (m : MotId) {k : Nat} (hk : D ≤ k) : dim k (s.vals m) = none := by
  cases hv : s.vals m with
  | none => rfl
  | some x =>
    obtain ⟨p, l⟩ := x
    have := h m p l hv
    simp only [dim, Option.bind_some]
    rw [List.getElem?_eq_none (by omega)]
    rfl

theorem Bd.set {D : Nat} {s : Abs δ} (h : Bd D s) {m : MotId} {v : Option (ProcId × List δ)}
    (hv : ∀ p l, v = some (p, l) → l.length ≤ D) : Bd D (s.set m v) := by
  intro x p l hx
  simp only [Abs.set] at hx
  split at hx
  · exact hv p l hx
  · exact h x p l hx

theorem Bd.rest {D : Nat} {s t : Abs δ} (h : Bd D s) (h' : Bd D t) (m : MotId) (k : Nat) (hk : D ≤ k) :
    dim k (t.vals m) = dim k (s.vals m) := by rw [h.dim_none m hk, h'.dim_none m hk]

theorem set_lane {u : Abs δ} {a : MotId} {k : Nat} {v : Option (ProcId × List δ)} (m : MotId) (j : Nat) :
    (u.set (lane a k) v).vals (lane m j) = if m = a ∧ j = k then v else u.vals (lane m j) := by
  simp only [Abs.set, lane_inj]

theorem set_vals {u : Abs δ} {a : MotId} {v : Option (ProcId × List δ)} (m : MotId) :
    (u.set a v).vals m = if m = a then v else u.vals m := rfl

theorem set_procs {u : Abs δ} {a : MotId} {v : Option (ProcId × List δ)} : (u.set a v).procs = u.procs := rfl

theorem lane_surj (x : MotId) : ∃ m k, x = lane m k := ⟨_, _, (Nat.pair_unpair x).symm⟩

theorem dim_some {k : Nat} {v : Option (ProcId × List δ)} {p : ProcId} {l' : List δ} :
    dim k v = some (p, l') ↔ ∃ l d, v = some (p, l) ∧ l[k]? = some d ∧ l' = [d] := by
  cases v with
  | none => simp [dim]
  | some x =>
    obtain ⟨q, l⟩ := x
    simp only [dim, Option.bind_some, Option.map_eq_some_iff, Prod.mk.injEq, Option.some.injEq]
    constructor
    · rintro ⟨d, h1, rfl, rfl⟩; exact ⟨l, d, ⟨rfl, rfl⟩, h1, rfl⟩
    · rintro ⟨l2, d, ⟨rfl, rfl⟩, h1, rfl⟩; exact ⟨d, h1, rfl, rfl⟩

theorem frame_iff (M : Machine δ κ τ) {s s' : Abs δ} (hr : Rel s s') (p : ProcId) (t : τ) :
    (∀ m l, s'.vals m = some (p, l) → ∀ x ∈ l, (M.frame t x).isSome) ↔
      ∀ m l, s.vals m = some (p, l) → ∀ x ∈ l, (M.frame t x).isSome := by
  constructor
  · intro h m l hv x hx
    obtain ⟨k, hk, rfl⟩ := List.mem_iff_getElem.mp hx
    refine h (lane m k) [l[k]] ?_ _ (by simp)
    rw [hr.2, dim_some]
    exact ⟨l, _, hv, List.getElem?_eq_getElem hk, rfl⟩
  · intro h m l hv x hx
    obtain ⟨a, k, rfl⟩ := lane_surj m
    rw [hr.2, dim_some] at hv
    obtain ⟨l2, d, h1, h2, rfl⟩ := hv
    simp at hx; subst hx
    exact h a l2 h1 _ (List.mem_of_getElem? h2)

/-- One call of a program, and the calls for its dimensions. -/
theorem sim (M : Machine δ κ τ) {D : Nat} {s s' t : Abs δ} {c : Call δ κ τ} (hr : Rel s s') (hb : Bd D s)
    (hw : c.Within D) (hc : absCall M c s = some t) :
    (∃ t', absRunFrom M s' (split D c) = some t' ∧ Rel t t') ∧ Bd D t := by
  match c with
  | .create p d cl =>
    simp only [absCall, Option.some.injEq] at hc
    subst hc
    refine ⟨⟨absStep (.create p d cl) s', rfl, ?_⟩, ?_⟩
    · simp only [absStep, hr.1]
      split
      · exact hr
      · exact ⟨rfl, hr.2⟩
    · simp only [absStep]
      split <;> exact hb
  | .initialize m p vals =>
    simp only [absCall] at hc
    split at hc
    · rename_i hg
      simp only [Option.some.injEq] at hc
      subst hc
      have hbt : Bd D (s.set m (some (p, vals))) := hb.set (by rintro q l e; simp at e; rw [← e.2]; exact hw)
      refine ⟨sim_lanes M _ D hr rfl (hb.rest hbt) ?_, hbt⟩
      intro k hk u hu hul
      cases hvk : vals[k]? with
      | some v =>
        refine ⟨u.set (lane m k) (some (p, [v])), ?_, hu, ?_, ?_⟩
        · simp only [absCall, hu]; rw [if_pos ⟨hg.1, by simp⟩]
        · intro x
          rw [set_lane, set_vals]
          by_cases hx : x = m
          · simp [hx, dim, hvk]
          · simp [hx, hul]
        · intro x j hj; rw [set_lane, if_neg (fun e => hj e.2)]
      | none =>
        refine ⟨u.set (lane m k) none, ?_, hu, ?_, ?_⟩
        · simp only [absCall, absStep]
        · intro x
          rw [set_lane, set_vals]
          by_cases hx : x = m
          · simp [hx, dim, hvk]
          · simp [hx, hul]
        · intro x j hj; rw [set_lane, if_neg (fun e => hj e.2)]
    · simp at hc
  | .invalidate m =>
    simp only [absCall, Option.some.injEq, absStep] at hc
    subst hc
    have hbt : Bd D (s.set m none) := hb.set (by simp)
    refine ⟨sim_lanes M _ D hr rfl (hb.rest hbt) ?_, hbt⟩
    intro k hk u hu hul
    refine ⟨u.set (lane m k) none, rfl, hu, ?_, ?_⟩
    · intro x
      rw [set_lane, set_vals]
      by_cases hx : x = m
      · simp [hx, dim]
      · simp [hx, hul]
    · intro x j hj; rw [set_lane, if_neg (fun e => hj e.2)]
  | .moveAssign dst src =>
    simp only [absCall, Option.some.injEq, absStep] at hc
    subst hc
    by_cases hds : dst = src
    · subst hds
      rw [if_pos rfl]
      have hbt : Bd D (s.set dst none) := hb.set (by simp)
      refine ⟨sim_lanes M _ D hr rfl (hb.rest hbt) ?_, hbt⟩
      intro k hk u hu hul
      refine ⟨u.set (lane dst k) none, by simp [absCall, absStep], hu, ?_, ?_⟩
      · intro x
        rw [set_lane, set_vals]
        by_cases hx : x = dst
        · simp [hx, dim]
        · simp [hx, hul]
      · intro x j hj; rw [set_lane, if_neg (fun e => hj e.2)]
    · rw [if_neg hds]
      have hbt : Bd D ((s.set dst (s.vals src)).set src none) := (hb.set (fun q l e => hb src q l e)).set (by simp)
      refine ⟨sim_lanes M _ D hr rfl (hb.rest hbt) ?_, hbt⟩
      intro k hk u hu hul
      refine ⟨(u.set (lane dst k) (u.vals (lane src k))).set (lane src k) none, ?_, hu, ?_, ?_⟩
      · simp only [absCall, absStep]
        rw [if_neg (fun e => hds (lane_inj.mp e).1)]
      · intro x
        rw [set_lane, set_lane, set_vals, set_vals]
        by_cases hx : x = src
        · simp [hx, dim]
        · by_cases hx2 : x = dst
          · simp [hx2, hds, hul]
          · simp [hx, hx2, hul]
      · intro x j hj; rw [set_lane, set_lane, if_neg (fun e => hj e.2), if_neg (fun e => hj e.2)]
  | .moveConstruct dst src =>
    simp only [absCall] at hc
    split at hc
    · rename_i hg
      simp only [Option.some.injEq] at hc
      subst hc
      have hds := hg.1
      have hbt : Bd D ((s.set dst (s.vals src)).set src none) := (hb.set (fun q l e => hb src q l e)).set (by simp)
      refine ⟨sim_lanes M _ D hr rfl (hb.rest hbt) ?_, hbt⟩
      intro k hk u hu hul
      refine ⟨(u.set (lane dst k) (u.vals (lane src k))).set (lane src k) none, ?_, hu, ?_, ?_⟩
      · simp only [absCall]
        rw [if_pos ⟨fun e => hds (lane_inj.mp e).1, by rw [hul, hg.2]; rfl⟩]
      · intro x
        rw [set_lane, set_lane, set_vals, set_vals]
        by_cases hx : x = src
        · simp [hx, dim]
        · by_cases hx2 : x = dst
          · simp [hx2, hds, hul]
          · simp [hx, hx2, hul]
      · intro x j hj; rw [set_lane, set_lane, if_neg (fun e => hj e.2), if_neg (fun e => hj e.2)]
    · simp at hc
  | .cloneFrom dst src =>
    have hbn : Bd D (s.set dst none) := hb.set (by simp)
    have hnone : ∀ (g : Nat → Call δ κ τ),
        (∀ k, k < D → ∀ u : Abs δ, u.procs = s.procs → (∀ m, u.vals (lane m k) = dim k (s.vals m)) →
          absCall M (g k) u = some (u.set (lane dst k) none)) →
        (∃ t', absRunFrom M s' ((List.range D).map g) = some t' ∧ Rel (s.set dst none) t') ∧ Bd D (s.set dst none) := by
      intro g hg
      refine ⟨sim_lanes M _ D hr rfl (hb.rest hbn) ?_, hbn⟩
      intro k hk u hu hul
      refine ⟨u.set (lane dst k) none, hg k hk u hu hul, hu, ?_, ?_⟩
      · intro x
        rw [set_lane, set_vals]
        by_cases hx : x = dst
        · simp [hx, dim]
        · simp [hx, hul]
      · intro x j hj; rw [set_lane, if_neg (fun e => hj e.2)]
    cases src with
    | none =>
      simp only [absCall, Option.some.injEq, absStep] at hc
      subst hc
      exact hnone _ fun k hk u hu hul => rfl
    | some src =>
      by_cases hds : dst = src
      · subst hds
        simp only [absCall, Option.some.injEq, absStep, if_true] at hc
        subst hc
        exact hnone _ fun k hk u hu hul => by simp [absCall, absStep]
      · have hld : ∀ k, lane dst k ≠ lane src k := fun k e => hds (lane_inj.mp e).1
        simp only [absCall, Option.some.injEq, absStep, if_neg hds] at hc
        cases hv : s.vals src with
        | none =>
          rw [hv] at hc
          subst hc
          refine hnone _ fun k hk u hu hul => ?_
          simp only [absCall, absStep, Option.map_some]
          rw [if_neg (hld k), hul, hv]
          rfl
        | some x =>
          obtain ⟨p, l⟩ := x
          rw [hv] at hc
          simp only at hc
          by_cases hp : s.procs p = some true
          · rw [if_pos hp] at hc
            subst hc
            have hbt : Bd D (s.set dst (some (p, l))) := hb.set (fun q l' e => hb src q l' (hv.trans e))
            refine ⟨sim_lanes M _ D hr rfl (hb.rest hbt) ?_, hbt⟩
            intro k hk u hu hul
            refine ⟨u.set (lane dst k) (u.vals (lane src k)), ?_, hu, ?_, ?_⟩
            · simp only [absCall, absStep, Option.map_some]
              rw [if_neg (hld k), hul, hv]
              cases hlk : l[k]? with
              | none => simp [dim, hlk]
              | some d => simp [dim, hlk, hu, hp]
            · intro y
              rw [set_lane, set_vals]
              by_cases hy : y = dst
              · simp [hy, hul, hv]
              · simp [hy, hul]
            · intro y j hj; rw [set_lane, if_neg (fun e => hj e.2)]
          · rw [if_neg hp] at hc
            subst hc
            refine hnone _ fun k hk u hu hul => ?_
            simp only [absCall, absStep, Option.map_some]
            rw [if_neg (hld k), hul, hv]
            cases hlk : l[k]? with
            | none => simp [dim, hlk]
            | some d => simp [dim, hlk, hu, hp]
  | .set m args =>
    simp only [absCall] at hc
    cases hv : s.vals m with
    | none => rw [hv] at hc; simp at hc
    | some x =>
      obtain ⟨p, l⟩ := x
      rw [hv] at hc
      simp only [Option.bind_some, Option.map_eq_some_iff] at hc
      obtain ⟨l', hl', rfl⟩ := hc
      have hlen := cmds_length hl'
      have hbt : Bd D (s.set m (some (p, l'))) := hb.set (fun q l2 e => by
        simp at e; rw [← e.2, hlen.2]; exact hb m p l hv)
      refine ⟨?_, hbt⟩
      have hsplit : split D (.set m args : Call δ κ τ) = (List.range args.length).map fun k =>
          (match args[k]? with | some a => .set (lane m k) [a] | none => .invalidate m : Call δ κ τ) := by
        apply List.ext_getElem?
        intro k
        simp only [split, List.getElem?_mapIdx, List.getElem?_map]
        by_cases hk : k < args.length
        · rw [List.getElem?_range hk, List.getElem?_eq_getElem hk]
          simp [List.getElem?_eq_getElem hk]
        · rw [List.getElem?_eq_none (by omega), List.getElem?_eq_none (by simpa using hk)]
          rfl
      rw [hsplit]
      refine sim_lanes M _ args.length hr rfl ?_ ?_
      · intro x k hk
        rw [set_vals]
        split
        · rename_i hx; subst hx
          rw [hv]
          simp only [dim, Option.bind_some]
          rw [List.getElem?_eq_none (by omega), List.getElem?_eq_none (by omega)]
        · rfl
      · intro k hk u hu hul
        have hka : args[k]? = some args[k] := List.getElem?_eq_getElem hk
        have hkl : k < l.length := by omega
        obtain ⟨d', hd1, hd2⟩ := cmds_get hl' hka (List.getElem?_eq_getElem hkl)
        have hum : u.vals (lane m k) = some (p, [l[k]]) := by
          rw [hul, hv]; simp [dim, List.getElem?_eq_getElem hkl]
        refine ⟨u.set (lane m k) (some (p, [d'])), ?_, hu, ?_, ?_⟩
        · simp only [hka, absCall, hum, Option.bind_some, cmds, hd1, Option.map_some]
        · intro x
          rw [set_lane, set_vals]
          by_cases hx : x = m
          · simp [hx, dim, hd2]
          · simp [hx, hul]
        · intro x j hj; rw [set_lane, if_neg (fun e => hj e.2)]
  | .frame p t =>
    simp only [absCall] at hc
    split at hc
    · rename_i hg
      simp only [Option.some.injEq] at hc
      subst hc
      refine ⟨⟨absStep (.advance p fun x => (M.frame t x).getD x) s', ?_, ?_⟩, ?_⟩
      · simp only [split, absRunFrom, List.foldlM_cons, List.foldlM_nil, absCall]
        rw [if_pos ⟨by rw [hr.1]; exact hg.1, (frame_iff M hr p t).mpr hg.2⟩]
        rfl
      · simp only [absStep, hr.1]
        rw [if_pos hg.1, if_pos hg.1]
        refine ⟨rfl, fun m k => ?_⟩
        simp only [hr.2]
        cases hv : s.vals m with
        | none => rfl
        | some x =>
          obtain ⟨q, l⟩ := x
          simp only [dim, Option.bind_some, Option.map_some]
          by_cases hq : q = p
          · simp only [hq, if_true, List.getElem?_map]
            cases l[k]? <;> simp
          · simp only [hq, if_false]
            cases l[k]? <;> simp [hq]
      · simp only [absStep]
        rw [if_pos hg.1]
        intro m q l hl
        simp only [Option.map_eq_some_iff] at hl
        obtain ⟨⟨q', l0⟩, h1, h2⟩ := hl
        have := hb m q' l0 h1
        split at h2
        · simp at h2; rw [← h2.2]; simpa using this
        · simp at h2; rw [← h2.2]; exact this
    · simp at hc
  | .destroyProc p =>
    simp only [absCall] at hc
    split at hc
    · rename_i hg
      simp only [Option.some.injEq] at hc
      subst hc
      refine ⟨⟨absStep (.destroyProc p) s', ?_, ?_⟩, ?_⟩
      · simp only [split, absRunFrom, List.foldlM_cons, List.foldlM_nil, absCall]
        rw [if_pos (by rw [hr.1]; exact hg)]
        rfl
      · simp only [absStep, hr.1]
        rw [if_pos hg, if_pos hg]
        refine ⟨rfl, fun m k => ?_⟩
        simp only [hr.2]
        cases hv : s.vals m with
        | none => rfl
        | some x =>
          obtain ⟨q, l⟩ := x
          simp only [dim, Option.bind_some]
          by_cases hq : q = p
          · cases l[k]? <;> simp [hq, Option.filter]
          · cases hlk : l[k]? <;> simp [hq, hlk, Option.filter]
      · simp only [absStep]
        rw [if_pos hg]
        intro m q l hl
        simp only [Option.filter_eq_some_iff] at hl
        exact hb m q l hl.1
    · simp at hc

theorem absRunFrom_append (M : Machine δ κ τ) (s : Abs δ) (a b : List (Call δ κ τ)) :
    absRunFrom M s (a ++ b) = (absRunFrom M s a).bind fun t => absRunFrom M t b := by
  simp only [absRunFrom, List.foldlM_append]
  rfl

theorem sim_run (M : Machine δ κ τ) {D : Nat} : ∀ {cs : List (Call δ κ τ)}, (∀ c ∈ cs, c.Within D) → ∀ {s s' t : Abs δ},
    Rel s s' → Bd D s → absRunFrom M s cs = some t →
    (∃ t', absRunFrom M s' (cs.flatMap (split D)) = some t' ∧ Rel t t') ∧ Bd D t
  | [], _, s, s', t, hr, hb, h => by
    simp only [absRunFrom, List.foldlM_nil] at h
    cases h
    exact ⟨⟨s', rfl, hr⟩, hb⟩
  | c :: cs, hw, s, s', t, hr, hb, h => by
    simp only [absRunFrom, List.foldlM_cons] at h
    cases hc : absCall M c s with
    | none => rw [hc] at h; cases h
    | some s1 =>
      rw [hc] at h
      obtain ⟨⟨s1', h1, h2⟩, h3⟩ := sim M hr hb (hw c (by simp)) hc
      obtain ⟨⟨t', h4, h5⟩, h6⟩ := sim_run M (fun c hc => hw c (by simp [hc])) h2 h3 h
      refine ⟨⟨t', ?_, h5⟩, h6⟩
      rw [List.flatMap_cons, absRunFrom_append, h1]
      exact h4

theorem run_iff (M : Machine δ κ τ) (cs : List (Call δ κ τ)) :
    (∀ w, run M cs = some w → WInv w ∧ absRunFrom M Abs.empty cs = some w.view) ∧
    ∀ s, absRunFrom M Abs.empty cs = some s → ∃ w, run M cs = some w ∧ w.view = s := by
  have h := runFrom_spec' M cs (winv_empty (δ := δ))
  rw [view_empty] at h
  constructor
  · intro w hw
    cases hs : absRunFrom M Abs.empty cs with
    | none =>
      rw [hs] at h
      simp only at h
      rw [run, h] at hw
      cases hw
    | some s =>
      rw [hs] at h
      obtain ⟨w', h1, h2, h3⟩ := h
      rw [run, h1] at hw
      cases hw
      exact ⟨h2, by rw [h3]⟩
  · intro s hs
    rw [hs] at h
    obtain ⟨w', h1, -, h3⟩ := h
    exact ⟨w', h1, h3⟩

theorem rel_empty : Rel (Abs.empty : Abs δ) Abs.empty := ⟨rfl, fun _ _ => rfl⟩

theorem bd_empty (D : Nat) : Bd D (Abs.empty : Abs δ) := by intro m p l h; cases h

/-! ## C89 -/

/-- **C89.** Whatever the slots do: replace, in any program, every motivator by one motivator of one dimension for each of its
dimensions, and every call on it by the same call on each of these. If the program runs, so does the new one, and the motivator
for dimension `k` of `m` holds what `m` holds in dimension `k` (nothing, if `m` has no such dimension). -/
theorem C89_dimensions_are_motivators (M : Machine δ κ τ) {D : Nat} {cs : List (Call δ κ τ)} (hD : ∀ c ∈ cs, c.Within D)
    {w : World δ} (h : run M cs = some w) :
    ∃ w', run M (cs.flatMap (split D)) = some w' ∧
      ∀ m k, w'.view.vals (lane m k) = (w.view.vals m).bind fun x => (x.2[k]?).map fun d => (x.1, [d]) := by
  obtain ⟨hw, ha⟩ := (run_iff M cs).1 w h
  obtain ⟨⟨t', h1, h2⟩, -⟩ := sim_run M hD rel_empty (bd_empty D) ha
  obtain ⟨w', h3, rfl⟩ := (run_iff M _).2 t' h1
  exact ⟨w', h3, h2.2⟩

theorem gatherLoop_eq {g : δ → β} {valid : Nat → Bool} {data : List δ} : ∀ {l pre post : List δ},
    data = pre ++ (l ++ post) → (∀ k, k < l.length → valid (pre.length + k) = true) →
    gatherLoop g valid data pre.length l.length = some (l.map g)
  | [], _, _, _, _ => rfl
  | d :: l, pre, post, hd, hv => by
    have h0 : valid pre.length = true := by simpa using hv 0 (by simp)
    have hget : data[pre.length]? = some d := by rw [hd]; simp
    have ih := gatherLoop_eq (g := g) (valid := valid) (data := data) (l := l) (pre := pre ++ [d]) (post := post)
      (by rw [hd]; simp) (by
        intro k hk
        have := hv (k + 1) (by simpa using hk)
        rw [List.length_append, List.length_singleton, show pre.length + 1 + k = pre.length + (k + 1) by omega]
        exact this)
    simp only [List.length_append, List.length_singleton] at ih
    simp only [List.length_cons, gatherLoop, h0, if_true, hget, Option.bind_some, ih, Option.map_some, List.map_cons]

theorem gather_eq {w : World δ} (h : WInv w) (g : δ → β) (m : MotId) :
    gather g w m = (w.view.vals m).map fun x => x.2.map g := by
  cases hv : w.view.vals m with
  | none => simp [gather, (view_none_iff h).mp hv]
  | some x =>
    obtain ⟨p, l⟩ := x
    obtain ⟨pr, pre, post, h1, h2, -, h4, h5, h6⟩ := slots h hv
    simp only [gather, h1, h2, h5, Option.bind_some, Option.map_some]
    exact gatherLoop_eq h4 h6

/-- Every motivator has a dimension. -/
theorem vals_pos {w : World δ} (h : WInv w) {m : MotId} {p : ProcId} {l : List δ} (hv : w.view.vals m = some (p, l)) :
    0 < l.length := by
  obtain ⟨pr, pre, post, -, -, h3, -⟩ := slots h hv
  exact h3.1.1

theorem first_eq {w : World δ} (h : WInv w) (g : δ → β) (m : MotId) :
    first g w m = (w.view.vals m).bind fun x => (x.2[0]?).map g := by
  cases hv : w.view.vals m with
  | none => simp [first, (view_none_iff h).mp hv]
  | some x =>
    obtain ⟨p, l⟩ := x
    obtain ⟨pr, pre, post, h1, h2, -, h4, h5, h6⟩ := slots h hv
    have hpos := vals_pos h hv
    have hval := h6 0 hpos
    simp only [Nat.add_zero] at hval
    have hget : pr.data[pre.length]? = l[0]? := by
      rw [h4, List.getElem?_append_right (by omega), List.getElem?_append_left (by omega)]; simp
    simp only [first, h1, h2, Option.bind_some, hval, if_true, hget]

/-- **C89, reading.** What the accessors return in the two programs: the arrays of values, velocities, targets and so on of a
motivator are made of what its dimensions' motivators return; each of these has one dimension, there are as many as `Dimensions()`
says; `SplineTime` and `MotiveShape` are those of dimension 0. -/
theorem C89_reads (M : Machine δ κ τ) {D : Nat} {cs : List (Call δ κ τ)} (hD : ∀ c ∈ cs, c.Within D)
    {w w' : World δ} (h : run M cs = some w) (h' : run M (cs.flatMap (split D)) = some w') (m : MotId) :
    (∀ n, w.dimensions m = some n ↔ 0 < n ∧ ∀ k, w'.dimensions (lane m k) = if k < n then some 1 else none) ∧
    (∀ (g : δ → β) (l : List β), gather g w m = some l →
      w.dimensions m = some l.length ∧ ∀ k v, l[k]? = some v → gather g w' (lane m k) = some [v]) ∧
    (∀ g : δ → β, first g w m = first g w' (lane m 0)) ∧
    ((gather (fun d : δ => d) w m).isSome ↔ w.valid m) := by
  obtain ⟨w2, h2, hrel⟩ := C89_dimensions_are_motivators M hD h
  rw [h'] at h2
  cases h2
  have hw := ((run_iff M cs).1 w h).1
  have hw' := ((run_iff M _).1 w' h').1
  have hdim : ∀ k, w'.dimensions (lane m k) = (w.view.vals m).bind fun x => (x.2[k]?).map fun _ => 1 := by
    intro k
    rw [dimensions_eq hw', hrel]
    cases w.view.vals m with
    | none => rfl
    | some x => cases hx : x.2[k]? <;> simp [hx]
  refine ⟨?_, ?_, ?_, ?_⟩
  · intro n
    rw [dimensions_eq hw]
    simp only [hdim]
    cases hv : w.view.vals m with
    | none =>
      simp only [Option.map_none, Option.bind_none]
      constructor
      · intro e; cases e
      · rintro ⟨e1, e2⟩
        have := e2 0
        rw [if_pos e1] at this
        cases this
    | some x =>
      obtain ⟨p, l⟩ := x
      have hpos := vals_pos hw hv
      simp only [Option.map_some, Option.bind_some, Option.some.injEq]
      constructor
      · rintro rfl
        refine ⟨hpos, fun k => ?_⟩
        split
        · rename_i hk; rw [List.getElem?_eq_getElem hk]; rfl
        · rename_i hk; rw [List.getElem?_eq_none (by omega)]; rfl
      · rintro ⟨e1, e2⟩
        rcases Nat.lt_trichotomy l.length n with hlt | heq | hgt
        · have := e2 l.length
          rw [if_pos hlt, List.getElem?_eq_none (by omega)] at this
          cases this
        · exact heq
        · have := e2 n
          rw [if_neg (by omega), List.getElem?_eq_getElem hgt] at this
          cases this
  · intro g l hl
    rw [gather_eq hw] at hl
    cases hv : w.view.vals m with
    | none => rw [hv] at hl; cases hl
    | some x =>
      obtain ⟨p, l0⟩ := x
      rw [hv] at hl
      simp only [Option.map_some, Option.some.injEq] at hl
      subst hl
      refine ⟨by rw [dimensions_eq hw, hv]; simp, fun k v hk => ?_⟩
      rw [gather_eq hw', hrel, hv]
      rw [List.getElem?_map, Option.map_eq_some_iff] at hk
      obtain ⟨d, hd, rfl⟩ := hk
      simp [hd]
  · intro g
    rw [first_eq hw, first_eq hw', hrel]
    cases w.view.vals m with
    | none => rfl
    | some x => cases hx : x.2[0]? <;> simp [hx]
  · rw [gather_eq hw]
    have := view_none_iff hw (m := m)
    cases hv : w.view.vals m with
    | none => simp [World.valid, this.mp hv]
    | some x =>
      have hne : w.mots m ≠ none := fun e => by rw [this.mpr e] at hv; cases hv
      simpa [World.valid, Option.isSome_iff_ne_none] using hne

theorem foldl_max_le : ∀ (l : List ℤ) (a b : ℤ), l.foldl max a ≤ b ↔ a ≤ b ∧ ∀ x ∈ l, x ≤ b
  | [], a, b => by simp
  | x :: l, a, b => by
    rw [List.foldl_cons, foldl_max_le l]
    simp only [Int.max_le, List.mem_cons, forall_eq_or_imp]
    tauto

/-- **C89, time to the target.** The time a motivator needs to reach its target is the largest of the times its dimensions'
motivators need. -/
theorem C89_target_time (M : Machine δ κ τ) {D : Nat} {cs : List (Call δ κ τ)} (hD : ∀ c ∈ cs, c.Within D)
    {w w' : World δ} (h : run M cs = some w) (h' : run M (cs.flatMap (split D)) = some w') {m : MotId} {n : Nat}
    (hn : w.dimensions m = some n) (g : δ → ℤ) :
    ∃ T, targetTime g w m = some T ∧ (∀ k < n, ∃ t, targetTime g w' (lane m k) = some t ∧ t ≤ T) ∧
      ∃ k < n, targetTime g w' (lane m k) = some T := by
  obtain ⟨w2, h2, hrel⟩ := C89_dimensions_are_motivators M hD h
  rw [h'] at h2
  cases h2
  have hw := ((run_iff M cs).1 w h).1
  have hw' := ((run_iff M _).1 w' h').1
  rw [dimensions_eq hw] at hn
  cases hv : w.view.vals m with
  | none => rw [hv] at hn; cases hn
  | some x =>
    obtain ⟨p, l⟩ := x
    rw [hv] at hn
    simp only [Option.map_some, Option.some.injEq] at hn
    subst hn
    have hpos := vals_pos hw hv
    have hlane : ∀ k (hk : k < l.length), targetTime g w' (lane m k) = some (max (-2147483648) (g l[k])) := by
      intro k hk
      simp [targetTime, gather_eq hw', hrel, hv, List.getElem?_eq_getElem hk]
    refine ⟨(l.map g).foldl max (-2147483648), by simp [targetTime, gather_eq hw, hv], ?_, ?_⟩
    · intro k hk
      have hle := (foldl_max_le (l.map g) (-2147483648) _).mp le_rfl
      refine ⟨_, hlane k hk, ?_⟩
      exact max_le hle.1 (hle.2 _ (List.mem_map_of_mem (List.getElem_mem hk)))
    · by_contra hcon
      push Not at hcon
      have hlt : ∀ k (hk : k < l.length), max (-2147483648) (g l[k]) < (l.map g).foldl max (-2147483648) := by
        intro k hk
        have hle := (foldl_max_le (l.map g) (-2147483648) _).mp le_rfl
        refine lt_of_le_of_ne (max_le hle.1 (hle.2 _ (List.mem_map_of_mem (List.getElem_mem hk)))) fun e => ?_
        exact hcon k hk (by rw [hlane k hk, e])
      have hT : (l.map g).foldl max (-2147483648) ≤ (l.map g).foldl max (-2147483648) - 1 := by
        rw [foldl_max_le]
        constructor
        · have := hlt 0 hpos; have := le_max_left (-2147483648) (g l[0]); omega
        · intro x hx
          obtain ⟨d, hd, rfl⟩ := List.mem_map.mp hx
          obtain ⟨k, hk, rfl⟩ := List.mem_iff_getElem.mp hd
          have := hlt k hk; have := le_max_right (-2147483648) (g l[k]); omega
      omega

theorem lanes_fail (M : Machine δ κ τ) (g : Nat → Call δ κ τ) (k0 : Nat) (s0 : Abs δ) : ∀ (ks : List Nat),
    (∀ j ∈ ks, j ≠ k0 → ∀ u u1, absCall M (g j) u = some u1 → ∀ m, u1.vals (lane m k0) = u.vals (lane m k0)) →
    (∀ u : Abs δ, (∀ m, u.vals (lane m k0) = s0.vals (lane m k0)) → absCall M (g k0) u = none) → k0 ∈ ks →
    ∀ s : Abs δ, (∀ m, s.vals (lane m k0) = s0.vals (lane m k0)) → absRunFrom M s (ks.map g) = none
  | [], _, _, hk, _, _ => by simp at hk
  | k :: ks, hp, hf, hk, s, hs => by
    simp only [absRunFrom, List.map_cons, List.foldlM_cons]
    by_cases hkk : k = k0
    · subst hkk; rw [hf s hs]; rfl
    · cases hc : absCall M (g k) s with
      | none => rfl
      | some s1 =>
        refine lanes_fail M g k0 s0 ks (fun j hj => hp j (by simp [hj])) hf ?_ s1 fun m => ?_
        · rcases List.mem_cons.mp hk with rfl | h
          · exact absurd rfl hkk
          · exact h
        · rw [hp k (by simp) hkk s s1 hc m, hs]

/-- **C89, failures.** A call that keeps to the API fails an assertion (or does not return) exactly if one of the calls on the
dimensions' motivators does. -/
theorem C89_same_failures (M : Machine δ κ τ) {D : Nat} {cs : List (Call δ κ τ)} (hD : ∀ c ∈ cs, c.Within D)
    {w : World δ} (h : run M cs = some w) {c : Call δ κ τ} (hc : c.Within D) (hl : c.Legal w) :
    (∃ w', call M c w = some w') ↔ ∃ w', run M ((cs ++ [c]).flatMap (split D)) = some w' := by
  obtain ⟨hw, ha⟩ := (run_iff M cs).1 w h
  obtain ⟨⟨t', h1, hr⟩, hb⟩ := sim_run M hD rel_empty (bd_empty D) ha
  have hcall := call_spec M hw c
  have hsplit : absRunFrom M Abs.empty ((cs ++ [c]).flatMap (split D)) = absRunFrom M t' (split D c) := by
    rw [List.flatMap_append, absRunFrom_append, h1]; simp
  constructor
  · rintro ⟨w', hw'⟩
    cases hs : absCall M c w.view with
    | none => rw [hs] at hcall; simp only at hcall; rw [hcall] at hw'; cases hw'
    | some t =>
      obtain ⟨⟨t2, h2, -⟩, -⟩ := sim M hr hb hc hs
      obtain ⟨w2, h3, -⟩ := (run_iff M ((cs ++ [c]).flatMap (split D))).2 t2 (by rw [hsplit, h2])
      exact ⟨w2, h3⟩
  · rintro ⟨w2, hw2⟩
    have hab := ((run_iff M _).1 w2 hw2).2
    rw [hsplit] at hab
    cases hs : absCall M c w.view with
    | some t =>
      rw [hs] at hcall
      obtain ⟨w', h3, -⟩ := hcall
      exact ⟨w', h3⟩
    | none =>
      exfalso
      have hps : ∀ p, (w.view.procs p).isSome = (w.procs p).isSome := by intro p; simp [World.view]
      match c with
      | .create p d cl => simp [absCall] at hs
      | .initialize m p vals =>
        simp only [absCall] at hs
        rw [if_pos ⟨(hps p).trans hl.1, hl.2⟩] at hs
        cases hs
      | .invalidate m => simp [absCall] at hs
      | .moveAssign dst src => simp [absCall] at hs
      | .moveConstruct dst src =>
        simp only [absCall] at hs
        have hl2 : w.view.vals dst = none := by
          rw [view_none_iff hw]
          simpa [World.valid] using hl.2
        rw [if_pos ⟨hl.1, hl2⟩] at hs
        cases hs
      | .cloneFrom dst src => simp [absCall] at hs
      | .destroyProc p =>
        simp only [absCall] at hs
        rw [if_pos ((hps p).trans hl)] at hs
        cases hs
      | .frame p t =>
        simp only [absCall] at hs
        split at hs
        · cases hs
        · rename_i hneg
          simp only [split, absRunFrom, List.foldlM_cons, List.foldlM_nil, absCall] at hab
          rw [if_neg (fun e => hneg ⟨by rw [← hr.1]; exact e.1, (frame_iff M hr p t).mp e.2⟩)] at hab
          cases hab
      | .set m args =>
        simp only [Call.Legal, dimensions_eq hw] at hl
        cases hv : w.view.vals m with
        | none => rw [hv] at hl; cases hl
        | some x =>
          obtain ⟨p, l⟩ := x
          rw [hv] at hl
          simp only [Option.map_some, Option.some.injEq] at hl
          simp only [absCall, hv, Option.bind_some, Option.map_eq_none_iff] at hs
          obtain ⟨k, a, d, e1, e2, e3⟩ := cmds_none hl.symm hs
          have hk : k < args.length := (List.getElem?_eq_some_iff.mp e1).1
          have hsp : split D (.set m args : Call δ κ τ) = (List.range args.length).map fun k =>
              (match args[k]? with | some a => .set (lane m k) [a] | none => .invalidate m : Call δ κ τ) := by
            apply List.ext_getElem?
            intro k
            simp only [split, List.getElem?_mapIdx, List.getElem?_map]
            by_cases hk : k < args.length
            · rw [List.getElem?_range hk, List.getElem?_eq_getElem hk]
              simp [List.getElem?_eq_getElem hk]
            · rw [List.getElem?_eq_none (by omega), List.getElem?_eq_none (by simpa using hk)]
              rfl
          rw [hsp, lanes_fail M _ k t' (List.range args.length) ?_ ?_ (List.mem_range.mpr hk) t' (fun _ => rfl)] at hab
          · cases hab
          · intro j hj hjk u u1 hu x
            rw [List.mem_range] at hj
            simp only [List.getElem?_eq_getElem hj, absCall, Option.bind_eq_some_iff, Option.map_eq_some_iff] at hu
            obtain ⟨y, -, l2, -, rfl⟩ := hu
            rw [set_lane, if_neg (fun e => hjk e.2.symm)]
          · intro u hu
            simp only [e1, absCall, hu m, hr.2, hv, dim, Option.bind_some, e2, Option.map_some, cmds, e3, Option.bind_none,
              Option.map_none]

/-- A machine for the examples: the slot is a number, and the setter does not accept 0. -/
def counter : Machine ℤ ℤ ℤ := ⟨fun k d => if k = 0 then none else some (10 * k + d), fun t d => some (d + t)⟩

/-- Motivators of up to three dimensions, with removal, reuse, a clone, a move and frames. -/
def story : List (Call ℤ ℤ ℤ) :=
  [.create 0 0 true, .initialize 10 0 [1, 2, 3], .initialize 11 0 [4], .set 10 [7, 8, 9], .frame 0 5, .invalidate 11,
    .initialize 11 0 [20, 30], .cloneFrom 12 (some 10), .moveAssign 11 10, .frame 0 100, .set 11 [1, 2, 3]]

theorem absRunFrom_cons {M : Machine δ κ τ} {c : Call δ κ τ} {cs : List (Call δ κ τ)} {s t u : Abs δ}
    (h1 : absCall M c s = some t) (h2 : absRunFrom M t cs = some u) : absRunFrom M s (c :: cs) = some u := by
  simp only [absRunFrom, List.foldlM_cons, h1]
  exact h2

theorem absInitialize {M : Machine δ κ τ} {m : MotId} {p : ProcId} {vals : List δ} {s : Abs δ} (h : (s.procs p).isSome = true)
    (hv : 0 < vals.length) : absCall M (.initialize m p vals) s = some (s.set m (some (p, vals))) :=
  if_pos ⟨h, hv⟩

theorem absFrame {M : Machine δ κ τ} {p : ProcId} {t : τ} {s : Abs δ} (h : (s.procs p).isSome = true)
    (hf : ∀ x, (M.frame t x).isSome = true) :
    absCall M (.frame p t) s = some (absStep (.advance p fun x => (M.frame t x).getD x) s) :=
  if_pos ⟨h, fun _ _ _ x _ => hf x⟩

theorem story_runs : ∃ w, run counter story = some w ∧ gather id w 11 = some [186, 207, 228] ∧
    gather id w 12 = some [176, 187, 198] ∧ w.dimensions 11 = some 3 ∧ w.dimensions 10 = none := by
  have h : ∃ s, absRunFrom counter Abs.empty story = some s ∧ s.vals 11 = some (0, [186, 207, 228]) ∧
      s.vals 12 = some (0, [176, 187, 198]) ∧ s.vals 10 = none := by
    refine ⟨_, absRunFrom_cons rfl (absRunFrom_cons (absInitialize rfl (by decide)) (absRunFrom_cons
      (absInitialize rfl (by decide)) (absRunFrom_cons rfl (absRunFrom_cons (absFrame rfl fun _ => rfl) (absRunFrom_cons rfl
      (absRunFrom_cons (absInitialize rfl (by decide)) (absRunFrom_cons rfl (absRunFrom_cons rfl
      (absRunFrom_cons (absFrame rfl fun _ => rfl) (absRunFrom_cons rfl rfl)))))))))), ?_, ?_, ?_⟩ <;> rfl
  obtain ⟨s, h1, h2, h3, h4⟩ := h
  obtain ⟨w, hw, rfl⟩ := (run_iff counter story).2 s h1
  have hi := ((run_iff counter story).1 w hw).1
  exact ⟨w, hw, by rw [gather_eq hi, h2]; rfl, by rw [gather_eq hi, h3]; rfl, by rw [dimensions_eq hi, h2]; rfl,
    by rw [dimensions_eq hi, h4]; rfl⟩

/-- The theorems apply to the story: with one motivator per dimension, it runs and gives the same numbers. -/
example : ∃ w', run counter (story.flatMap (split 3)) = some w' ∧ gather id w' (lane 11 0) = some [186] ∧
    gather id w' (lane 11 1) = some [207] ∧ gather id w' (lane 11 2) = some [228] ∧ w'.dimensions (lane 11 3) = none ∧
    ∃ T, targetTime id w' (lane 11 2) = some T ∧ T = 228 := by
  have hD : ∀ c ∈ story, c.Within 3 := by simp [story, Call.Within]
  obtain ⟨w, hw, h11, -, hd, -⟩ := story_runs
  obtain ⟨w', hw', -⟩ := C89_dimensions_are_motivators counter hD hw
  obtain ⟨h1, h2, -⟩ := C89_reads (β := ℤ) counter hD hw hw' 11
  have h3 := (h2 id _ h11).2
  have h4 := ((h1 3).mp hd).2 3
  have h5 := h3 2 228 rfl
  exact ⟨w', hw', h3 0 186 rfl, h3 1 207 rfl, h5, h4, 228, by simp [targetTime, h5], rfl⟩

/-- A setter that fails in dimension 1, in both programs. -/
example : ∃ w, run counter story = some w ∧ (Call.set 11 [1, 0, 3] : Call ℤ ℤ ℤ).Legal w ∧
    call counter (.set 11 [1, 0, 3]) w = none ∧
    ¬ ∃ w', run counter ((story ++ [Call.set 11 [1, 0, 3]]).flatMap (split 3)) = some w' := by
  have hD : ∀ c ∈ story, c.Within 3 := by simp [story, Call.Within]
  obtain ⟨w, hw, h11, -, hd, -⟩ := story_runs
  have hl : (Call.set 11 [1, 0, 3] : Call ℤ ℤ ℤ).Legal w := hd
  have hn : call counter (.set 11 [1, 0, 3]) w = none := by
    have hi := ((run_iff counter story).1 w hw).1
    rw [gather_eq hi] at h11
    have hs := call_spec counter hi (.set 11 [1, 0, 3])
    cases hv : w.view.vals 11 with
    | none => rw [hv] at h11; cases h11
    | some x =>
      rw [hv] at h11
      simp only [List.map_id_fun, id_eq, Option.map_some, Option.some.injEq] at h11
      have : absCall counter (.set 11 [1, 0, 3]) w.view = none := by
        simp [absCall, hv, h11, cmds, counter]
      rw [this] at hs
      exact hs
  exact ⟨w, hw, hl, hn, fun he => by
    obtain ⟨w', h'⟩ := (C89_same_failures counter hD hw (by simp [Call.Within]) hl).mpr he
    rw [hn] at h'; cases h'⟩

theorem cmds_append {M : Machine δ κ τ} : ∀ {ks : List κ} {l l' : List δ} {a : κ} {d d' : δ}, cmds M ks l = some l' →
    M.cmd a d = some d' → cmds M (ks ++ [a]) (l ++ [d]) = some (l' ++ [d'])
  | [], [], l', a, d, d', h, hd => by simp [cmds] at h; simp [h, cmds, hd]
  | k :: ks, e :: ds, l', a, d, d', h, hd => by
    simp only [cmds, Option.bind_eq_some_iff, Option.map_eq_some_iff] at h
    obtain ⟨e', he, l2, h2, rfl⟩ := h
    simp [cmds, he, cmds_append h2 hd]
  | [], _ :: _, _, _, _, _, h, _ => by simp [cmds] at h
  | _ :: _, [], _, _, _, _, h, _ => by simp [cmds] at h

/-- **C89, disagreement.** The setters of `MotivatorXfTemplate` pass their own number of dimensions, not that of the processor, and
`InitializeWithTargetShape` (vector_motivator.h:284-292) lets the caller choose another. If a motivator was made with fewer
dimensions, its setters do not fail: they overwrite the next motivator in the processor. -/
theorem C89_extra_dimension_overwrites (M : Machine δ κ τ) {cs : List (Call δ κ τ)} {w : World δ} (h : run M cs = some w)
    {m m2 : MotId} {p : ProcId} {i : Nat} {l l2 l' : List δ} {d d' : δ} {ks : List κ} {a : κ}
    (hm : w.mots m = some (p, i)) (hv : w.view.vals m = some (p, l))
    (hm2 : w.mots m2 = some (p, i + l.length)) (hv2 : w.view.vals m2 = some (p, d :: l2))
    (hks : cmds M ks l = some l') (ha : M.cmd a d = some d') :
    ∃ w', Vector.set M w m (ks ++ [a]) = some w' ∧ w'.view.vals m2 = some (p, d' :: l2) := by
  have hw := ((run_iff M cs).1 w h).1
  obtain ⟨pr, pre, post, h1, h2, h3, h4, h5, h6⟩ := slots hw hv
  obtain ⟨pr2, pre2, post2, g1, g2, g3, g4, g5, g6⟩ := slots hw hv2
  rw [h2] at g2
  cases g2
  rw [hm] at h1
  rw [hm2] at g1
  simp only [Option.some.injEq, Prod.mk.injEq, true_and] at h1 g1
  subst h1
  have hpre : pre ++ l = pre2 ∧ post = d :: l2 ++ post2 := by
    rw [h4] at g4
    have := List.append_inj (s₁ := pre ++ l) (s₂ := pre2) (t₁ := post) (t₂ := d :: l2 ++ post2) (by simpa using g4) (by simp [g1])
    exact this
  obtain ⟨rfl, rfl⟩ := hpre
  have hlen := cmds_length hks
  have hset : Vector.set M w m (ks ++ [a]) = some (w.setProc p (some { pr with data := pre ++ ((l' ++ [d']) ++ (l2 ++ post2)) })) := by
    simp only [Vector.set, hm, h2, Option.bind_some]
    rw [h4, show pre ++ (l ++ (d :: l2 ++ post2)) = pre ++ ((l ++ [d]) ++ (l2 ++ post2)) by simp,
      setLoop_eq M (by simp [hlen.1]) (by
        intro k hk
        simp only [List.length_append, List.length_singleton] at hk
        by_cases hkl : k < l.length
        · exact h6 k hkl
        · have := g6 0 (by simp)
          rw [show pre.length + k = (pre ++ l).length + 0 by simp; omega]
          exact this), cmds_append hks ha]
    rfl
  refine ⟨_, hset, ?_⟩
  rw [List.length_append] at g3
  rw [view_some (w := w.setProc p _) (p := p) (i := pre.length + l.length)
    (pr := { pr with data := pre ++ ((l' ++ [d']) ++ (l2 ++ post2)) }) hm2 (by simp [World.setProc]) g3]
  congr 2
  rw [show pre ++ ((l' ++ [d']) ++ (l2 ++ post2)) = (pre ++ l') ++ ((d' :: l2) ++ post2) by simp,
    show pre.length + l.length = (pre ++ l').length by simp [hlen.2], List.drop_left,
    show (d :: l2).length = (d' :: l2).length by simp, List.take_left]

/-- A motivator of one dimension whose setter is called for two, next to another. -/
example : ∃ w w' : World ℤ, run counter [.create 0 0 true, .initialize 10 0 [1], .initialize 11 0 [4]] = some w ∧
    w.dimensions 10 = some 1 ∧ gather id w 11 = some [4] ∧
    Vector.set counter w 10 [7, 8] = some w' ∧ gather id w' 11 = some [84] := by
  have h : (run counter [.create 0 0 true, .initialize 10 0 [1], .initialize 11 0 [4]]).bind (fun w =>
      (Vector.set counter w 10 [7, 8]).map fun w' => (w.dimensions 10, gather id w 11, gather id w' 11)) =
      some (some 1, some [4], some [84]) := by rfl
  rw [Option.bind_eq_some_iff] at h
  obtain ⟨w, h1, h2⟩ := h
  rw [Option.map_eq_some_iff] at h2
  obtain ⟨w', h3, h4⟩ := h2
  simp only [Prod.mk.injEq] at h4
  exact ⟨w, w', h1, h4.1, h4.2.1, h3, h4.2.2⟩

end Motive.Proc.Vector
