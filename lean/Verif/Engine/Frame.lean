import Verif.Engine.Props
import Verif.Proc.Partial
import Verif.Matrix.Clone
/-!
# C78: one call of `AdvanceFrame` brings every motivator to the same time

The eight processors of the library, with the motivators of each, on one engine (src/motive/engine.cpp).  Matrix and sqt motivators
read the values of one-dimensional motivators, and rig motivators read those of matrix and sqt motivators.  Nothing but the order in which
`MotiveEngine::AdvanceFrame` calls the processors makes sure that what they read belongs to the same frame.

The slots of the one-dimensional processors, of the matrix and sqt processors and of the rig processor have the types `δ`, `σ` and
`ρ`.  What their updates compute is a parameter here (`Updates`): see `Verif.Slot`, `Verif.Spline`, `Verif.Matrix` and `Verif.Rig`.
-/

namespace Motive.Engine
open Motive.Proc (World MotId ProcId WInv)

/-- The types of processors that the library registers (`MOTIVE_INSTANCE` at the end of each file in src/motive/processor). -/
inductive Kind where
  | spline | spring | ease | overshoot | const | matrix | sqt | rig
  deriving DecidableEq, Repr

/-- `Priority()`: spline_processor.cpp:41, spring_processor.cpp:65, ease_in_ease_out_processor.cpp:110, overshoot_processor.cpp:46,
const_processor.cpp:58, matrix_processor.cpp:50, sqt_processor.cpp:51, rig_processor.cpp:82. -/
def Kind.priority : Kind → Int
  | .spline => 0
  | .spring => 1
  | .ease => 1
  | .overshoot => 1
  | .const => 1
  | .matrix => 2
  | .sqt => 2
  | .rig => 3

/-- `SupportsCloning()`: processor.h:192, spline_processor.cpp:212, matrix_processor.cpp:135, sqt_processor.cpp:136. -/
def Kind.cloning : Kind → Bool
  | .spline => true
  | .spring => false
  | .ease => false
  | .overshoot => false
  | .const => false
  | .matrix => true
  | .sqt => true
  | .rig => false

/-- What kind of slots a processor has. -/
inductive Level where
  | leaf | mat | rig
  deriving DecidableEq, Repr

def Kind.level : Kind → Level
  | .spline => .leaf
  | .spring => .leaf
  | .ease => .leaf
  | .overshoot => .leaf
  | .const => .leaf
  | .matrix => .mat
  | .sqt => .mat
  | .rig => .rig

/-- `kType` of each kind. -/
def Kind.code : Kind → Nat
  | .spline => 0
  | .spring => 1
  | .ease => 2
  | .overshoot => 3
  | .const => 4
  | .matrix => 5
  | .sqt => 6
  | .rig => 7

variable {δ σ ρ : Type}

/-- An engine, the kind of each processor that it has created, and the processors with their motivators. -/
structure System (δ σ ρ : Type) where
  engine : Engine
  kinds : ProcId → Option Kind
  leaves : World δ
  mats : World σ
  rigs : World ρ

/-- What others can read of the motivators of a processor: the values of each dimension of each valid motivator. -/
def values (w : World δ) (m : MotId) : Option (List δ) := (w.view.vals m).map Prod.snd

/-- The updates of one slot in one frame.  Matrix and sqt slots see the values of the one-dimensional motivators, rig slots those of the
matrix and sqt motivators.  A `none` result is a failed assertion. -/
structure Updates (δ σ ρ : Type) where
  leaf : Kind → δ → Option δ
  mat : (MotId → Option (List δ)) → Kind → σ → Option σ
  rig : (MotId → Option (List σ)) → ρ → Option ρ

/-- The slots of a new processor before they are initialised. -/
structure Defaults (δ σ ρ : Type) where
  leaf : δ
  mat : σ
  rig : ρ

/-- The virtual call of `AdvanceFrame` on one processor (engine.cpp:79-82).  A composite slot reads what it depends on at that moment. -/
def System.tick (L : Updates δ σ ρ) (S : System δ σ ρ) (p : ProcId) : Option (System δ σ ρ) :=
  match S.kinds p with
  | none => none
  | some k =>
    match k.level with
    | .leaf => (S.leaves.advanceM p (L.leaf k)).map fun w => { S with leaves := w }
    | .mat => (S.mats.advanceM p (L.mat (values S.leaves) k)).map fun w => { S with mats := w }
    | .rig => (S.rigs.advanceM p (L.rig (values S.mats))).map fun w => { S with rigs := w }

/-- `MotiveEngine::AdvanceFrame` (engine.cpp:73-85). -/
def System.frame (L : Updates δ σ ρ) (S : System δ σ ρ) : Option (System δ σ ρ) :=
  (advance S.engine).bind fun order => order.foldlM (fun S p => S.tick L p) S

/-- The processor that the engine has just created (engine.cpp:64). -/
def System.created (D : Defaults δ σ ρ) (S : System δ σ ρ) (k : Kind) (p : ProcId) : System δ σ ρ :=
  let S := { S with kinds := fun q => if q = p then some k else S.kinds q }
  match k.level with
  | .leaf => { S with leaves := S.leaves.setProc p (some (Proc.Proc.new D.leaf k.cloning)) }
  | .mat => { S with mats := S.mats.setProc p (some (Proc.Proc.new D.mat k.cloning)) }
  | .rig => { S with rigs := S.rigs.setProc p (some (Proc.Proc.new D.rig k.cloning)) }

/-- `MotiveEngine::Processor` (engine.cpp:51-71), the first step of `Initialize`. -/
def System.use (D : Defaults δ σ ρ) (k : Kind) (S : System δ σ ρ) : Option (System δ σ ρ) :=
  match processor k.code S.engine with
  | none => none
  | some (e, r) => some (if e.next = S.engine.next then { S with engine := e } else
      match r with
      | none => { S with engine := e }
      | some p => { S with engine := e }.created D k p)

/-- Calls of the program.  A call on a composite motivator is a call on its own slot and calls on the motivators that it owns. -/
inductive SCall (δ σ ρ : Type) where
  | use (k : Kind)
  | leaf (op : Proc.Op δ)
  | mat (op : Proc.Op σ)
  | rig (op : Proc.Op ρ)
  | frame (L : Updates δ σ ρ)

/-- A call on motivators: processors are created and updated by the engine only. -/
def onMotivator : Proc.Op δ → Bool
  | .create .. => false
  | .advance .. => false
  | .destroyProc .. => false
  | _ => true

def System.step (D : Defaults δ σ ρ) (S : System δ σ ρ) : SCall δ σ ρ → Option (System δ σ ρ)
  | .use k => S.use D k
  | .leaf op => if onMotivator op then (Proc.step op S.leaves).map fun w => { S with leaves := w } else some S
  | .mat op => if onMotivator op then (Proc.step op S.mats).map fun w => { S with mats := w } else some S
  | .rig op => if onMotivator op then (Proc.step op S.rigs).map fun w => { S with rigs := w } else some S
  | .frame L => S.frame L

/-- A program that has registered all types (engine.cpp:26-29). -/
def registered : List Call :=
  [.spline, .spring, .ease, .overshoot, .const, .matrix, .sqt, .rig].map fun k : Kind => .register k.code k.priority

/-- The engine after registering all types. -/
def registeredEngine : Engine :=
  ⟨[(0, 0), (1, 1), (2, 1), (3, 1), (4, 1), (5, 2), (6, 2), (7, 3)], [], [], fun _ => none, 0⟩

def System.init : System δ σ ρ := ⟨registeredEngine, fun _ => none, World.empty, World.empty, World.empty⟩

def System.runFrom (D : Defaults δ σ ρ) (S : System δ σ ρ) : List (SCall δ σ ρ) → Option (System δ σ ρ)
  | [] => some S
  | c :: cs => (S.step D c).bind fun S' => S'.runFrom D cs

/-- The state after a history of calls. -/
def System.run (D : Defaults δ σ ρ) (cs : List (SCall δ σ ρ)) : Option (System δ σ ρ) := System.init.runFrom D cs

open Proc.World in
theorem registered_run : run registered = some registeredEngine := rfl

/-! ### The frames of the processors of one level -/

/-- Several processors, one after the other. -/
def phase (w : World δ) (f : ProcId → δ → Option δ) (ps : List ProcId) : Option (World δ) :=
  ps.foldlM (fun w p => w.advanceM p (f p)) w

theorem mapM_getD {f : δ → Option δ} {l : List δ} (h : ∀ x ∈ l, (f x).isSome) : l.mapM f = some (l.map fun y => (f y).getD y) := by
  obtain ⟨l', hl'⟩ := Proc.mapM_isSome_iff.mpr h
  rw [hl', Proc.mapM_eq_map hl']

theorem procs_isSome {w : World δ} {p : ProcId} : (w.procs p).isSome = (w.view.procs p).isSome := by simp [World.view]

theorem advanceM_procs {hist : List (Proc.Op δ)} {w w' : World δ} (h : Proc.run hist = some w) {p : ProcId} (hp : (w.procs p).isSome)
    {f : δ → Option δ} (hw : w.advanceM p f = some w') (q : ProcId) : (w'.procs q).isSome = (w.procs q).isSome := by
  obtain ⟨hw0, -⟩ := Proc.run_winv h
  have h1 := ((Proc.C39_frame_succeeds_iff h hp f).2 w' hw).1
  have h2 : Proc.runFrom w [.advance p fun x => (f x).getD x] = some w' := by
    rw [Proc.run, Matrix4.runFrom_append h] at h1; exact h1
  obtain ⟨w2, e1, -, e3⟩ := Proc.runFrom_spec [.advance p fun x => (f x).getD x] w hw0
  rw [h2] at e1
  cases e1
  rw [procs_isSome, e3, procs_isSome]
  simp only [List.foldl_cons, List.foldl_nil, Proc.absStep]
  split <;> rfl

theorem phase_spec (f : ProcId → δ → Option δ) : ∀ (ps : List ProcId) {hist : List (Proc.Op δ)} {w w' : World δ}, Proc.run hist = some w →
    ps.Nodup → (∀ p ∈ ps, (w.procs p).isSome) → phase w f ps = some w' →
    (∃ hist', Proc.run hist' = some w') ∧ (∀ q, (w'.procs q).isSome = (w.procs q).isSome) ∧
    (∀ m, w.view.vals m = none → w'.view.vals m = none) ∧
    ∀ m p l, w.view.vals m = some (p, l) →
      (p ∉ ps → w'.view.vals m = some (p, l)) ∧ (p ∈ ps → ∃ l', l.mapM (f p) = some l' ∧ w'.view.vals m = some (p, l'))
  | [], hist, w, w', h, _, _, hp => by
    simp only [phase, List.foldlM_nil, Option.pure_def, Option.some.injEq] at hp
    subst hp
    exact ⟨⟨hist, h⟩, fun _ => rfl, fun _ h => h, fun m p l h => ⟨fun _ => h, fun h' => absurd h' (by simp)⟩⟩
  | p :: ps, hist, w, w', h, hn, ha, hp => by
    simp only [phase, List.foldlM_cons, Option.bind_eq_bind, Option.bind_eq_some_iff] at hp
    obtain ⟨w1, h1, h2⟩ := hp
    have hsome := ha p (by simp)
    obtain ⟨hiff, hval⟩ := Proc.C39_frame_succeeds_iff h hsome (f p)
    obtain ⟨hr, hv⟩ := hval w1 h1
    have hok := hiff.mp ⟨w1, h1⟩
    have hprocs := advanceM_procs h hsome h1
    rw [List.nodup_cons] at hn
    obtain ⟨g1, g2, g3, g4⟩ := phase_spec f ps hr hn.2 (fun q hq => by rw [hprocs]; exact ha q (by simp [hq])) h2
    refine ⟨g1, fun q => by rw [g2, hprocs], fun m hm => g3 m (by rw [hv, hm]; rfl), fun m q l hm => ?_⟩
    have hm1 := hv m
    rw [hm] at hm1
    by_cases hq : q = p
    · subst hq
      simp only [Option.map_some, if_true] at hm1
      obtain ⟨a, -⟩ := g4 m q _ hm1
      refine ⟨fun h' => absurd (by simp) h', fun _ => ⟨_, mapM_getD (hok m l hm), a hn.1⟩⟩
    · simp only [Option.map_some, hq, if_false] at hm1
      obtain ⟨a, b⟩ := g4 m q l hm1
      refine ⟨fun h' => a fun h'' => h' (by simp [h'']), fun h' => b ?_⟩
      simpa [hq] using h'

theorem phase_ok (f : ProcId → δ → Option δ) : ∀ (ps : List ProcId) {hist : List (Proc.Op δ)} {w : World δ}, Proc.run hist = some w →
    ps.Nodup → (∀ p ∈ ps, (w.procs p).isSome) → (∀ m p l, w.view.vals m = some (p, l) → p ∈ ps → ∀ x ∈ l, (f p x).isSome) →
    ∃ w', phase w f ps = some w'
  | [], _, w, _, _, _, _ => ⟨w, rfl⟩
  | p :: ps, hist, w, h, hn, ha, hok => by
    have hsome := ha p (by simp)
    obtain ⟨hiff, hval⟩ := Proc.C39_frame_succeeds_iff h hsome (f p)
    obtain ⟨w1, h1⟩ := hiff.mpr fun m l hm x hx => hok m p l hm (by simp) x hx
    obtain ⟨hr, hv⟩ := hval w1 h1
    have hprocs := advanceM_procs h hsome h1
    rw [List.nodup_cons] at hn
    obtain ⟨w2, h2⟩ := phase_ok f ps hr hn.2 (fun q hq => by rw [hprocs]; exact ha q (by simp [hq])) fun m q l hm hq x hx => by
      rw [hv] at hm
      cases h0 : w.view.vals m with
      | none => rw [h0] at hm; simp at hm
      | some y =>
        rw [h0] at hm
        simp only [Option.map_some, Option.some.injEq] at hm
        by_cases hy : y.1 = p
        · rw [if_pos hy] at hm
          exact absurd (by rw [← hy]; simpa using (congrArg Prod.fst hm) ▸ hq) hn.1
        · rw [if_neg hy] at hm
          subst hm
          exact hok m q l h0 (by simp [hq]) x hx
    exact ⟨w2, by simp [phase, List.foldlM_cons, h1]; exact h2⟩

/-! ### Every reachable state -/

theorem Kind.code_inj {k k' : Kind} (h : k.code = k'.code) : k = k' := by
  revert h; cases k <;> cases k' <;> simp [Kind.code]

/-- The processors of the engine are those of the three levels. -/
structure Good (S : System δ σ ρ) : Prop where
  strong : StrongInv S.engine
  reg : ∀ k : Kind, find S.engine.registry k.code = some k.priority
  map : ∀ t p, (t, p) ∈ S.engine.mapped ↔ ∃ k : Kind, k.code = t ∧ S.kinds p = some k
  leaf : ∀ p, (S.leaves.procs p).isSome ↔ ∃ k, S.kinds p = some k ∧ k.level = .leaf
  mat : ∀ p, (S.mats.procs p).isSome ↔ ∃ k, S.kinds p = some k ∧ k.level = .mat
  rig : ∀ p, (S.rigs.procs p).isSome ↔ ∃ k, S.kinds p = some k ∧ k.level = .rig
  hleaf : ∃ h, Proc.run h = some S.leaves
  hmat : ∃ h, Proc.run h = some S.mats
  hrig : ∃ h, Proc.run h = some S.rigs

theorem Good.heap {S : System δ σ ρ} (h : Good S) {p : ProcId} {k : Kind} (hk : S.kinds p = some k) : S.engine.heap p = some k.priority := by
  obtain ⟨prio, h1, h2⟩ := h.strong.alive k.code p ((h.map _ _).mpr ⟨k, rfl, hk⟩)
  rw [h.reg] at h1
  rw [h2, h1]

theorem Good.init : Good (System.init : System δ σ ρ) := by
  obtain ⟨e, h1, h2⟩ := strong_run registered _ strong_init (by decide)
  have he : e = registeredEngine := by
    have := registered_run
    rw [run, h1] at this
    exact Option.some.inj this
  subst he
  refine ⟨h2, fun k => ?_, fun t p => ?_, fun p => ?_, fun p => ?_, fun p => ?_, ⟨[], rfl⟩, ⟨[], rfl⟩, ⟨[], rfl⟩⟩
  · cases k <;> rfl
  all_goals simp [System.init, registeredEngine, World.empty]

theorem run_snoc {hist : List (Proc.Op δ)} {w w' : World δ} (h : Proc.run hist = some w) {op : Proc.Op δ} (hs : Proc.step op w = some w') :
    Proc.run (hist ++ [op]) = some w' := by
  rw [Proc.run, Matrix4.runFrom_append h]
  simp [Proc.runFrom, hs]

/-- A call on motivators neither creates nor destroys processors. -/
theorem onMotivator_procs {w w' : World δ} (hw : WInv w) {op : Proc.Op δ} (ho : onMotivator op) (hs : Proc.step op w = some w') (q : ProcId) :
    (w'.procs q).isSome = (w.procs q).isSome := by
  obtain ⟨w2, e1, -, e3⟩ := Proc.step_spec hw op
  rw [hs] at e1
  cases e1
  rw [procs_isSome, e3, procs_isSome]
  suffices h : (Proc.absStep op w.view).procs = w.view.procs by rw [h]
  cases op with
  | create => simp [onMotivator] at ho
  | advance => simp [onMotivator] at ho
  | destroyProc => simp [onMotivator] at ho
  | cloneFrom d s =>
    cases s with
    | none => rfl
    | some s =>
      simp only [Proc.absStep]
      repeat' split
      all_goals rfl
  | _ =>
    simp only [Proc.absStep]
    repeat' split
    all_goals rfl

theorem isSome_setProc {w : World δ} {p : ProcId} {pr : Proc.Proc δ} {q : ProcId} :
    ((w.setProc p (some pr)).procs q).isSome ↔ q = p ∨ (w.procs q).isSome := by
  simp only [World.setProc]
  by_cases h : q = p <;> simp [h]

theorem run_create {hist : List (Proc.Op δ)} {w : World δ} (h : Proc.run hist = some w) {p : ProcId} (hp : (w.procs p).isSome = false) (d : δ)
    (cl : Bool) : Proc.run (hist ++ [.create p d cl]) = some (w.setProc p (some (Proc.Proc.new d cl))) :=
  run_snoc h (by simp [Proc.step, hp])

theorem Good.created {S : System δ σ ρ} (h : Good S) (D : Defaults δ σ ρ) {k : Kind} {e : Engine} (hs : StrongInv e)
    (hreg : e.registry = S.engine.registry) (hmap : e.mapped = S.engine.mapped ++ [(k.code, S.engine.next)]) :
    Good ({ S with engine := e }.created D k S.engine.next) := by
  have hnone : S.kinds S.engine.next = none := by
    cases hk : S.kinds S.engine.next with
    | none => rfl
    | some k' => exact absurd (h.strong.fresh _ _ (h.heap hk)) (lt_irrefl _)
  have hkinds : ({ S with engine := e }.created D k S.engine.next).kinds = fun q => if q = S.engine.next then some k else S.kinds q := by
    unfold System.created; cases k.level <;> rfl
  have hengine : ({ S with engine := e }.created D k S.engine.next).engine = e := by
    unfold System.created; cases k.level <;> rfl
  have hmapped : ∀ t p, (t, p) ∈ e.mapped ↔ ∃ k' : Kind, k'.code = t ∧ (if p = S.engine.next then some k else S.kinds p) = some k' := by
    intro t p
    rw [hmap, List.mem_append, h.map, List.mem_singleton, Prod.mk.injEq]
    constructor
    · rintro (⟨k', rfl, hk'⟩ | ⟨rfl, rfl⟩)
      · refine ⟨k', rfl, ?_⟩
        rw [if_neg]
        · exact hk'
        · rintro rfl; rw [hnone] at hk'; simp at hk'
      · exact ⟨k, rfl, by simp⟩
    · rintro ⟨k', rfl, hk'⟩
      by_cases hp : p = S.engine.next
      · rw [if_pos hp] at hk'; cases hk'; exact .inr ⟨rfl, hp⟩
      · rw [if_neg hp] at hk'; exact .inl ⟨k', rfl, hk'⟩
  have hlevel : ∀ (lv : Level) (p : ProcId), (∃ k', (if p = S.engine.next then some k else S.kinds p) = some k' ∧ k'.level = lv) ↔
      (p = S.engine.next ∧ k.level = lv) ∨ (∃ k', S.kinds p = some k' ∧ k'.level = lv) := by
    intro lv p
    by_cases hp : p = S.engine.next
    · subst hp; simp [hnone]
    · simp [hp]
  have hl0 : (S.leaves.procs S.engine.next).isSome = false := by
    rw [← Bool.not_eq_true, h.leaf]; simp [hnone]
  have hm0 : (S.mats.procs S.engine.next).isSome = false := by
    rw [← Bool.not_eq_true, h.mat]; simp [hnone]
  have hr0 : (S.rigs.procs S.engine.next).isSome = false := by
    rw [← Bool.not_eq_true, h.rig]; simp [hnone]
  obtain ⟨h1, g1⟩ := h.hleaf
  obtain ⟨h2, g2⟩ := h.hmat
  obtain ⟨h3, g3⟩ := h.hrig
  refine ⟨by rw [hengine]; exact hs, fun k' => by rw [hengine, hreg]; exact h.reg k', by rw [hengine, hkinds]; exact hmapped, ?_, ?_, ?_, ?_, ?_, ?_⟩
  · intro p
    rw [hkinds, hlevel, ← h.leaf]
    unfold System.created
    cases k.level <;> simp [isSome_setProc]
  · intro p
    rw [hkinds, hlevel, ← h.mat]
    unfold System.created
    cases k.level <;> simp [isSome_setProc]
  · intro p
    rw [hkinds, hlevel, ← h.rig]
    unfold System.created
    cases k.level <;> simp [isSome_setProc]
  · unfold System.created
    cases k.level with
    | leaf => exact ⟨_, run_create g1 hl0 _ _⟩
    | _ => exact ⟨h1, g1⟩
  · unfold System.created
    cases k.level with
    | mat => exact ⟨_, run_create g2 hm0 _ _⟩
    | _ => exact ⟨h2, g2⟩
  · unfold System.created
    cases k.level with
    | rig => exact ⟨_, run_create g3 hr0 _ _⟩
    | _ => exact ⟨h3, g3⟩

theorem Good.use {S : System δ σ ρ} (h : Good S) (D : Defaults δ σ ρ) (k : Kind) : ∃ S', S.use D k = some S' ∧ Good S' := by
  obtain ⟨e, r, h1, h2⟩ := strong_processor h.strong k.code
  have h3 := h1
  unfold processor at h3
  unfold System.use
  rw [h1]
  simp only
  refine ⟨_, rfl, ?_⟩
  split at h3
  · simp only [Option.some.injEq, Prod.mk.injEq] at h3
    rw [← h3.1, if_pos rfl]
    exact h
  · rename_i hm
    rw [h.reg] at h3
    simp only at h3
    split at h3
    · simp at h3
    · simp only [Option.some.injEq, Prod.mk.injEq] at h3
      obtain ⟨h3, rfl⟩ := h3
      have hnext : e.next = S.engine.next + 1 := by rw [← h3]; rfl
      rw [if_neg (by omega)]
      refine h.created D h2 (by rw [← h3]; rfl) ?_
      rw [← h3, remember, insert_absent hm]

/-! ### The order of a frame -/

theorem Good.order {S : System δ σ ρ} (h : Good S) : ∃ A B C : List ProcId, advance S.engine = some (A ++ B ++ C) ∧
    A.Nodup ∧ B.Nodup ∧ C.Nodup ∧
    (∀ p, p ∈ A ↔ ∃ k, S.kinds p = some k ∧ k.level = .leaf) ∧
    (∀ p, p ∈ B ↔ ∃ k, S.kinds p = some k ∧ k.level = .mat) ∧
    (∀ p, p ∈ C ↔ ∃ k, S.kinds p = some k ∧ k.level = .rig) := by
  have hmem : ∀ p, p ∈ S.engine.sorted ↔ ∃ k, S.kinds p = some k := by
    intro p
    rw [h.strong.perm.mem_iff, List.mem_map]
    constructor
    · rintro ⟨⟨t, q⟩, h1, rfl⟩
      obtain ⟨k, -, hk⟩ := (h.map t q).mp h1
      exact ⟨k, hk⟩
    · rintro ⟨k, hk⟩
      exact ⟨(k.code, p), (h.map _ _).mpr ⟨k, rfl, hk⟩, rfl⟩
  have hnd : S.engine.sorted.Nodup := h.strong.perm.nodup_iff.mpr h.strong.vals
  let lv : ProcId → Option Level := fun p => (S.kinds p).map Kind.level
  have hsplit : ∀ l : List ProcId, (∀ p ∈ l, ∃ k, S.kinds p = some k) →
      (l.Pairwise fun p q => ∀ a b, S.engine.heap p = some a → S.engine.heap q = some b → a < b ∨ (a = b ∧ p < q)) →
      l = l.filter (fun p => lv p = some .leaf) ++ l.filter (fun p => lv p = some .mat) ++ l.filter (fun p => lv p = some .rig) := by
    intro l
    induction l with
    | nil => intro _ _; rfl
    | cons p l ih =>
      intro hk hp
      rw [List.pairwise_cons] at hp
      have hl := ih (fun q hq => hk q (by simp [hq])) hp.2
      obtain ⟨k, hkp⟩ := hk p (by simp)
      have hle : ∀ q ∈ l, ∀ k', S.kinds q = some k' → k.priority ≤ k'.priority := by
        intro q hq k' hk'
        rcases hp.1 q hq _ _ (h.heap hkp) (h.heap hk') with h1 | h1 <;> omega
      have hlv : lv p = some k.level := by simp [lv, hkp]
      have hno : ∀ v : Level, (∀ k' : Kind, k'.level = v → k'.priority < k.priority) → l.filter (fun p => lv p = some v) = [] := by
        intro v hv
        rw [List.filter_eq_nil_iff]
        intro q hq hc
        obtain ⟨k', hk'⟩ := hk q (by simp [hq])
        simp only [lv, hk', Option.map_some, decide_eq_true_eq, Option.some.injEq] at hc
        have := hle q hq k' hk'
        have := hv k' hc
        omega
      cases hv : k.level with
      | leaf =>
        rw [hv] at hlv
        simp only [List.filter_cons, hlv, decide_true, if_true, Option.some.injEq, reduceCtorEq, decide_false, Bool.false_eq_true, if_false,
          List.cons_append]
        rw [← hl]
      | mat =>
        rw [hv] at hlv
        have hb := hno .leaf (by cases k <;> simp [Kind.level] at hv; all_goals intro k'; cases k' <;> simp [Kind.level, Kind.priority])
        rw [hb] at hl
        simp only [List.filter_cons, hlv, decide_true, if_true, Option.some.injEq, reduceCtorEq, decide_false, Bool.false_eq_true, if_false,
          hb, List.cons_append, List.nil_append]
        rw [← List.nil_append (List.filter _ _), ← hl]
      | rig =>
        rw [hv] at hlv
        have hb := hno .leaf (by cases k <;> simp [Kind.level] at hv; all_goals intro k'; cases k' <;> simp [Kind.level, Kind.priority])
        have hb' := hno .mat (by cases k <;> simp [Kind.level] at hv; all_goals intro k'; cases k' <;> simp [Kind.level, Kind.priority])
        rw [hb, hb'] at hl
        simp only [List.filter_cons, hlv, decide_true, if_true, Option.some.injEq, reduceCtorEq, decide_false, Bool.false_eq_true, if_false,
          hb, hb', List.nil_append]
        rw [← List.nil_append (List.filter _ _), ← List.nil_append ([] ++ List.filter _ _), ← List.append_assoc, ← hl]
  have hmf : ∀ (v : Level) p, p ∈ S.engine.sorted.filter (fun p => lv p = some v) ↔ ∃ k, S.kinds p = some k ∧ k.level = v := by
    intro v p
    rw [List.mem_filter, hmem, decide_eq_true_eq]
    constructor
    · rintro ⟨⟨k, hk⟩, h1⟩
      simp only [lv, hk, Option.map_some, Option.some.injEq] at h1
      exact ⟨k, hk, h1⟩
    · rintro ⟨k, hk, h1⟩
      exact ⟨⟨k, hk⟩, by simp [lv, hk, h1]⟩
  refine ⟨_, _, _, ?_, hnd.filter _, hnd.filter _, hnd.filter _, hmf .leaf, hmf .mat, hmf .rig⟩
  rw [strong_advance h.strong, ← hsplit _ (fun p hp => (hmem p).mp hp) h.strong.order]

/-! ### C78 -/

theorem ticks_leaf (L : Updates δ σ ρ) : ∀ (ps : List ProcId) (S : System δ σ ρ), (∀ p ∈ ps, ∃ k, S.kinds p = some k ∧ k.level = .leaf) →
    ps.foldlM (fun S p => S.tick L p) S =
      (phase S.leaves (fun p x => (S.kinds p).bind fun k => L.leaf k x) ps).map fun w => { S with leaves := w }
  | [], S, _ => rfl
  | p :: ps, S, h => by
    obtain ⟨k, hk, hl⟩ := h p (by simp)
    simp only [List.foldlM_cons, phase, System.tick, hk, hl, Option.bind_eq_bind, Option.bind_some]
    cases S.leaves.advanceM p (L.leaf k) with
    | none => rfl
    | some w => exact ticks_leaf L ps { S with leaves := w } fun q hq => h q (by simp [hq])

theorem ticks_mat (L : Updates δ σ ρ) : ∀ (ps : List ProcId) (S : System δ σ ρ), (∀ p ∈ ps, ∃ k, S.kinds p = some k ∧ k.level = .mat) →
    ps.foldlM (fun S p => S.tick L p) S =
      (phase S.mats (fun p x => (S.kinds p).bind fun k => L.mat (values S.leaves) k x) ps).map fun w => { S with mats := w }
  | [], S, _ => rfl
  | p :: ps, S, h => by
    obtain ⟨k, hk, hl⟩ := h p (by simp)
    simp only [List.foldlM_cons, phase, System.tick, hk, hl, Option.bind_eq_bind, Option.bind_some]
    cases S.mats.advanceM p (L.mat (values S.leaves) k) with
    | none => rfl
    | some w => exact ticks_mat L ps { S with mats := w } fun q hq => h q (by simp [hq])

theorem ticks_rig (L : Updates δ σ ρ) : ∀ (ps : List ProcId) (S : System δ σ ρ), (∀ p ∈ ps, ∃ k, S.kinds p = some k ∧ k.level = .rig) →
    ps.foldlM (fun S p => S.tick L p) S = (phase S.rigs (fun _ => L.rig (values S.mats)) ps).map fun w => { S with rigs := w }
  | [], S, _ => rfl
  | p :: ps, S, h => by
    obtain ⟨k, hk, hl⟩ := h p (by simp)
    simp only [List.foldlM_cons, phase, System.tick, hk, hl, Option.bind_eq_bind]
    cases S.rigs.advanceM p (L.rig (values S.mats)) with
    | none => rfl
    | some w => exact ticks_rig L ps { S with rigs := w } fun q hq => h q (by simp [hq])

/-- A frame is a frame of the one-dimensional processors, then one of the matrix and sqt processors, then one of the rigs. -/
theorem Good.frame_eq {S : System δ σ ρ} (h : Good S) (L : Updates δ σ ρ) : ∃ A B C : List ProcId, A.Nodup ∧ B.Nodup ∧ C.Nodup ∧
    (∀ p, p ∈ A ↔ ∃ k, S.kinds p = some k ∧ k.level = .leaf) ∧
    (∀ p, p ∈ B ↔ ∃ k, S.kinds p = some k ∧ k.level = .mat) ∧
    (∀ p, p ∈ C ↔ ∃ k, S.kinds p = some k ∧ k.level = .rig) ∧
    S.frame L = (phase S.leaves (fun p x => (S.kinds p).bind fun k => L.leaf k x) A).bind fun w1 =>
      (phase S.mats (fun p x => (S.kinds p).bind fun k => L.mat (values w1) k x) B).bind fun w2 =>
        (phase S.rigs (fun _ => L.rig (values w2)) C).map fun w3 => ⟨S.engine, S.kinds, w1, w2, w3⟩ := by
  obtain ⟨A, B, C, h0, h1, h2, h3, h4, h5, h6⟩ := h.order
  refine ⟨A, B, C, h1, h2, h3, h4, h5, h6, ?_⟩
  unfold System.frame
  rw [h0, Option.bind_some, List.foldlM_append, List.foldlM_append, ticks_leaf L A S fun p hp => (h4 p).mp hp]
  cases phase S.leaves (fun p x => (S.kinds p).bind fun k => L.leaf k x) A with
  | none => rfl
  | some w1 =>
    simp only [Option.map_some, Option.bind_eq_bind, Option.bind_some]
    rw [ticks_mat L B { S with leaves := w1 } fun p hp => (h5 p).mp hp]
    cases phase S.mats (fun p x => (S.kinds p).bind fun k => L.mat (values w1) k x) B with
    | none => rfl
    | some w2 =>
      simp only [Option.map_some, Option.bind_some]
      rw [ticks_rig L C { S with leaves := w1, mats := w2 } fun p hp => (h6 p).mp hp]

/-- Every valid motivator is of a processor of its level. -/
theorem vals_procs {w : World δ} (hw : WInv w) {m : MotId} {p : ProcId} {l : List δ} (h : w.view.vals m = some (p, l)) : (w.procs p).isSome := by
  obtain ⟨i, n, pr, -, h2, -⟩ := (Proc.view_iff hw).mp h
  rw [h2]; rfl

theorem mapM_congr' {f g : δ → Option δ} {l : List δ} (h : ∀ x ∈ l, f x = g x) : l.mapM f = l.mapM g := by
  induction l with
  | nil => rfl
  | cons a l ih => rw [List.mapM_cons, List.mapM_cons, h a (by simp), ih fun x hx => h x (by simp [hx])]

/-- What a frame does to the motivators of one level, if `f` is the update of their slots: those that are not valid stay so, the others
keep their processor and have every slot updated. -/
def Updated (kinds : ProcId → Option Kind) (f : Kind → δ → Option δ) (w w' : World δ) : Prop :=
  ∀ m, (w.view.vals m = none → w'.view.vals m = none) ∧
    ∀ p l, w.view.vals m = some (p, l) → ∃ k l', kinds p = some k ∧ l.mapM (f k) = some l' ∧ w'.view.vals m = some (p, l')

theorem Good.frame {S S' : System δ σ ρ} (h : Good S) {L : Updates δ σ ρ} (hf : S.frame L = some S') : Good S' ∧
    S'.engine = S.engine ∧ S'.kinds = S.kinds ∧ Updated S.kinds L.leaf S.leaves S'.leaves ∧
    Updated S.kinds (L.mat (values S'.leaves)) S.mats S'.mats ∧ Updated S.kinds (fun _ => L.rig (values S'.mats)) S.rigs S'.rigs := by
  obtain ⟨A, B, C, h1, h2, h3, h4, h5, h6, h7⟩ := h.frame_eq L
  rw [h7] at hf
  simp only [Option.bind_eq_some_iff, Option.map_eq_some_iff] at hf
  obtain ⟨w1, f1, w2, f2, w3, f3, rfl⟩ := hf
  obtain ⟨i1, g1⟩ := h.hleaf
  obtain ⟨i2, g2⟩ := h.hmat
  obtain ⟨i3, g3⟩ := h.hrig
  obtain ⟨a1, a2, a3, a4⟩ := phase_spec _ A g1 h1 (fun p hp => (h.leaf p).mpr ((h4 p).mp hp)) f1
  obtain ⟨b1, b2, b3, b4⟩ := phase_spec _ B g2 h2 (fun p hp => (h.mat p).mpr ((h5 p).mp hp)) f2
  obtain ⟨c1, c2, c3, c4⟩ := phase_spec _ C g3 h3 (fun p hp => (h.rig p).mpr ((h6 p).mp hp)) f3
  refine ⟨⟨h.strong, h.reg, h.map, fun p => by rw [a2]; exact h.leaf p, fun p => by rw [b2]; exact h.mat p,
    fun p => by rw [c2]; exact h.rig p, a1, b1, c1⟩, rfl, rfl, fun m => ⟨a3 m, fun p l hm => ?_⟩, fun m => ⟨b3 m, fun p l hm => ?_⟩,
    fun m => ⟨c3 m, fun p l hm => ?_⟩⟩
  · obtain ⟨k, hk, hl⟩ := (h.leaf p).mp (vals_procs (Proc.run_winv g1).1 hm)
    obtain ⟨l', e1, e2⟩ := (a4 m p l hm).2 ((h4 p).mpr ⟨k, hk, hl⟩)
    exact ⟨k, l', hk, by simpa [hk] using e1, e2⟩
  · obtain ⟨k, hk, hl⟩ := (h.mat p).mp (vals_procs (Proc.run_winv g2).1 hm)
    obtain ⟨l', e1, e2⟩ := (b4 m p l hm).2 ((h5 p).mpr ⟨k, hk, hl⟩)
    exact ⟨k, l', hk, by simpa [hk] using e1, e2⟩
  · obtain ⟨k, hk, hl⟩ := (h.rig p).mp (vals_procs (Proc.run_winv g3).1 hm)
    obtain ⟨l', e1, e2⟩ := (c4 m p l hm).2 ((h6 p).mpr ⟨k, hk, hl⟩)
    exact ⟨k, l', hk, e1, e2⟩

theorem Good.step {S S' : System δ σ ρ} (h : Good S) (D : Defaults δ σ ρ) {c : SCall δ σ ρ} (hs : S.step D c = some S') : Good S' := by
  obtain ⟨i1, g1⟩ := h.hleaf
  obtain ⟨i2, g2⟩ := h.hmat
  obtain ⟨i3, g3⟩ := h.hrig
  cases c with
  | use k =>
    obtain ⟨S'', h1, h2⟩ := h.use D k
    have hs' : S.use D k = some S' := hs
    rw [h1] at hs'
    cases hs'
    exact h2
  | frame L => exact (h.frame hs).1
  | leaf op =>
    simp only [System.step] at hs
    split at hs
    · rename_i ho
      simp only [Option.map_eq_some_iff] at hs
      obtain ⟨w, hw, rfl⟩ := hs
      exact { h with
        leaf := fun p => by rw [onMotivator_procs (Proc.run_winv g1).1 ho hw]; exact h.leaf p
        hleaf := ⟨_, run_snoc g1 hw⟩ }
    · cases hs; exact h
  | mat op =>
    simp only [System.step] at hs
    split at hs
    · rename_i ho
      simp only [Option.map_eq_some_iff] at hs
      obtain ⟨w, hw, rfl⟩ := hs
      exact { h with
        mat := fun p => by rw [onMotivator_procs (Proc.run_winv g2).1 ho hw]; exact h.mat p
        hmat := ⟨_, run_snoc g2 hw⟩ }
    · cases hs; exact h
  | rig op =>
    simp only [System.step] at hs
    split at hs
    · rename_i ho
      simp only [Option.map_eq_some_iff] at hs
      obtain ⟨w, hw, rfl⟩ := hs
      exact { h with
        rig := fun p => by rw [onMotivator_procs (Proc.run_winv g3).1 ho hw]; exact h.rig p
        hrig := ⟨_, run_snoc g3 hw⟩ }
    · cases hs; exact h

theorem Good.runFrom (D : Defaults δ σ ρ) : ∀ (cs : List (SCall δ σ ρ)) {S S' : System δ σ ρ}, Good S → S.runFrom D cs = some S' → Good S'
  | [], S, S', h, hr => by cases hr; exact h
  | c :: cs, S, S', h, hr => by
    simp only [System.runFrom, Option.bind_eq_some_iff] at hr
    obtain ⟨S1, h1, h2⟩ := hr
    exact Good.runFrom D cs (h.step D h1) h2

theorem Good.run {D : Defaults δ σ ρ} {cs : List (SCall δ σ ρ)} {S : System δ σ ρ} (h : System.run D cs = some S) : Good S :=
  Good.runFrom D cs Good.init h

/-- C78: one time for all.  After any history of calls, in which the processors were created in any order, one `AdvanceFrame` updates
every slot of every valid motivator exactly once.  A matrix or sqt motivator is updated with the values that the one-dimensional motivators
have after the frame.  A rig motivator is updated with what the matrix and sqt motivators report after the frame. -/
theorem C78_one_time {D : Defaults δ σ ρ} {cs : List (SCall δ σ ρ)} {S S' : System δ σ ρ} (h : System.run D cs = some S) {L : Updates δ σ ρ}
    (hf : S.frame L = some S') : Updated S.kinds L.leaf S.leaves S'.leaves ∧
      Updated S.kinds (L.mat (values S'.leaves)) S.mats S'.mats ∧ Updated S.kinds (fun _ => L.rig (values S'.mats)) S.rigs S'.rigs := by
  obtain ⟨-, -, -, h1⟩ := (Good.run h).frame hf
  exact h1

/-- C78: a frame succeeds after any history, if the update succeeds on the slots of the valid motivators, whatever the composite ones
read. -/
theorem C78_succeeds {D : Defaults δ σ ρ} {cs : List (SCall δ σ ρ)} {S : System δ σ ρ} (h : System.run D cs = some S) {L : Updates δ σ ρ}
    (hl : ∀ m p l k, S.leaves.view.vals m = some (p, l) → S.kinds p = some k → ∀ x ∈ l, (L.leaf k x).isSome)
    (hm : ∀ r m p l k, S.mats.view.vals m = some (p, l) → S.kinds p = some k → ∀ x ∈ l, (L.mat r k x).isSome)
    (hr : ∀ r m p l, S.rigs.view.vals m = some (p, l) → ∀ x ∈ l, (L.rig r x).isSome) : ∃ S', S.frame L = some S' := by
  have hg := Good.run h
  obtain ⟨A, B, C, h1, h2, h3, h4, h5, h6, h7⟩ := hg.frame_eq L
  obtain ⟨i1, g1⟩ := hg.hleaf
  obtain ⟨i2, g2⟩ := hg.hmat
  obtain ⟨i3, g3⟩ := hg.hrig
  obtain ⟨w1, f1⟩ := phase_ok (fun p x => (S.kinds p).bind fun k => L.leaf k x) A g1 h1 (fun p hp => (hg.leaf p).mpr ((h4 p).mp hp))
    fun m p l hv hp x hx => by
      obtain ⟨k, hk, -⟩ := (h4 p).mp hp
      simpa [hk] using hl m p l k hv hk x hx
  obtain ⟨w2, f2⟩ := phase_ok (fun p x => (S.kinds p).bind fun k => L.mat (values w1) k x) B g2 h2 (fun p hp => (hg.mat p).mpr ((h5 p).mp hp))
    fun m p l hv hp x hx => by
      obtain ⟨k, hk, -⟩ := (h5 p).mp hp
      simpa [hk] using hm (values w1) m p l k hv hk x hx
  obtain ⟨w3, f3⟩ := phase_ok (fun _ => L.rig (values w2)) C g3 h3 (fun p hp => (hg.rig p).mpr ((h6 p).mp hp))
    fun m p l hv _ x hx => hr (values w2) m p l hv x hx
  exact ⟨_, by rw [h7, f1, Option.bind_some, f2, Option.bind_some, f3]; rfl⟩

/-- In the example, a spline motivator is a number that grows by 1 in each frame, a matrix motivator shows what it reads of motivator 1, and
a rig motivator what it reads of motivator 2. -/
def demoUpdates : Updates Int Int Int where
  leaf _ x := some (x + 1)
  mat r _ _ := some (((r 1).bind List.head?).getD 0)
  rig r _ := some (((r 2).bind List.head?).getD 0)

/-- The rig processor is created first and the spline processor last. -/
def demoCalls : List (SCall Int Int Int) :=
  [.use .rig, .use .matrix, .use .spline, .rig (.initialize 3 0 [0]), .mat (.initialize 2 1 [0]), .leaf (.initialize 1 2 [10])]

/-- What the three motivators show. -/
def shown (S : System Int Int Int) : List (Option (List Int)) := [values S.leaves 1, values S.mats 2, values S.rigs 3]

example : ((System.run ⟨0, 0, 0⟩ demoCalls).map fun S => (shown S, (advance S.engine))) =
    some ([some [10], some [0], some [0]], some [2, 1, 0]) := by decide +kernel
example : ((System.run ⟨0, 0, 0⟩ demoCalls).bind fun S => (S.frame demoUpdates).map shown) =
    some [some [11], some [11], some [11]] := by decide +kernel

/-- C78 is a matter of the order: in the order of their creation, the processors would show three different frames. -/
theorem C78_order_matters : ∃ S S' : System Int Int Int, System.run ⟨0, 0, 0⟩ (demoCalls ++ [.frame demoUpdates]) = some S ∧
    [0, 1, 2].foldlM (fun (S : System Int Int Int) p => S.tick demoUpdates p) S = some S' ∧
    values S'.leaves 1 = some [12] ∧ values S'.mats 2 = some [11] ∧ values S'.rigs 3 = some [11] ∧
    ∃ S'', S.frame demoUpdates = some S'' ∧ values S''.leaves 1 = some [12] ∧ values S''.mats 2 = some [12] ∧ values S''.rigs 3 = some [12] := by
  have h1 : ((System.run ⟨0, 0, 0⟩ (demoCalls ++ [.frame demoUpdates])).bind fun S =>
      ([0, 1, 2].foldlM (fun (S : System Int Int Int) p => S.tick demoUpdates p) S).bind fun S' => (S.frame demoUpdates).map fun S'' => (shown S', shown S'')) =
      some ([some [12], some [11], some [11]], [some [12], some [12], some [12]]) := by decide +kernel
  simp only [Option.bind_eq_some_iff, Option.map_eq_some_iff] at h1
  obtain ⟨S, e1, S', e2, S'', e3, e4⟩ := h1
  simp only [shown, Prod.mk.injEq, List.cons.injEq, and_true] at e4
  exact ⟨S, S', e1, e2, e4.1.1, e4.1.2.1, e4.1.2.2, S'', e3, e4.2.1, e4.2.2.1, e4.2.2.2⟩

end Motive.Engine
