import Verif.Owner.Steps

/-! Every allowed call succeeds, keeps the invariant and means what `Nested.step` says. -/

namespace Motive.Owner

open Motive.Proc

variable {δ ρ κ : Type} {U : MotId → Bool} {A A' : Abs δ} {B B' : Abs (Comp ρ κ)}

/-- The invariant of both levels. -/
structure Good (U : MotId → Bool) (S : Sys δ ρ κ) : Prop where
  leaves : WInv S.leaves
  comps : WInv S.comps
  clean : S.comps.Clean
  dflt : S.comps.Dflt fun c => c.items = []
  owned : Owned U S.leaves.view S.comps.view

theorem good_init : Good U (Sys.init : Sys δ ρ κ) :=
  ⟨winv_empty, winv_empty, fun p pr h => by simp [Sys.init, World.empty] at h, fun p pr h => by simp [Sys.init, World.empty] at h,
    ⟨fun _ => by simp [Sys.init, addrs, view_empty, Abs.empty, addrsOf], fun _ _ _ h => by simp [Sys.init, addrs, view_empty, Abs.empty, addrsOf] at h,
      fun _ _ h => by simp [Sys.init, addrs, view_empty, Abs.empty, addrsOf] at h, fun _ h => by simp [Sys.init, view_empty, Abs.empty] at h⟩⟩

theorem procs_of_vals {w : World δ} (h : WInv w) {m : MotId} {p : ProcId} {l : List δ} (hm : w.view.vals m = some (p, l)) :
    (w.view.procs p).isSome := by
  obtain ⟨i, n, pr, -, h2, -⟩ := (view_iff h).mp hm
  simp [World.view, h2]

theorem runFrom_clean {P : δ → Prop} (ops : List (Op δ)) (hc : ∀ op ∈ ops, ∀ p d cl, op = .create p d cl → P d) : ∀ (w : World δ),
    WInv w → w.Clean → w.Dflt P → ∃ w', runFrom w ops = some w' ∧ WInv w' ∧ w'.Clean ∧ w'.Dflt P ∧ w'.view = fold w.view ops := by
  induction ops with
  | nil => intro w h1 h2 h3; exact ⟨w, rfl, h1, h2, h3, rfl⟩
  | cons op ops ih =>
    intro w h1 h2 h3
    obtain ⟨w1, e1, e2, e3⟩ := step_spec h1 op
    obtain ⟨w', g1, g2, g3, g4, g5⟩ := ih (fun o ho => hc o (List.mem_cons_of_mem _ ho)) w1 e2 (step_clean h1 h2 op e1)
      (step_dflt h3 op (hc op List.mem_cons_self) e1)
    exact ⟨w', by simp [runFrom, e1, g1], g2, g3, g4, by rw [g5, e3]; rfl⟩

/-- The children of the slots of a processor are the children of its matrices. -/
theorem Good.mem_data {S : Sys δ ρ κ} (h : Good U S) {p : ProcId} {a : MotId} :
    a ∈ addrsOf (S.data p) ↔ ∃ m l, S.comps.view.vals m = some (p, l) ∧ a ∈ addrsOf l := by
  constructor
  · intro ha
    obtain ⟨c, hc, i, hi, rfl⟩ := mem_addrsOf.mp ha
    unfold Sys.data at hc
    cases hpr : S.comps.procs p with
    | none => rw [hpr] at hc; simp at hc
    | some pr =>
      rw [hpr] at hc
      simp only [Option.map_some, Option.getD_some] at hc
      rcases slot_cases h.comps h.clean hpr hc with h1 | ⟨m, l, h1, h2⟩
      · rw [h1, h.dflt p pr hpr] at hi; simp at hi
      · exact ⟨m, l, h1, mem_addrsOf.mpr ⟨c, h2, i, hi, rfl⟩⟩
  · rintro ⟨m, l, h1, h2⟩
    obtain ⟨c, hc, i, hi, rfl⟩ := mem_addrsOf.mp h2
    obtain ⟨pr, hpr, hsub⟩ := slot_mem h.comps h1
    refine mem_addrsOf.mpr ⟨c, ?_, i, hi, rfl⟩
    unfold Sys.data
    rw [hpr]
    exact hsub c hc

theorem addrs_some {m : MotId} {p : ProcId} {l : List (Comp ρ κ)} (h : B.vals m = some (p, l)) : addrs B m = addrsOf l := by
  unfold addrs; rw [h]; rfl

theorem free_none {S : Sys δ ρ κ} (h : Owned U S.leaves.view S.comps.view) {a : MotId} (ha : S.Free U a) : S.leaves.view.vals a = none := by
  by_contra hc
  rcases h.owned a hc with h1 | ⟨m, hm⟩
  · rw [ha.1] at h1; simp at h1
  · exact ha.2 m hm

theorem valid_isSome {w : World δ} (h : WInv w) (a : MotId) : w.valid a = (w.view.vals a).isSome := by
  unfold World.valid
  cases hm : w.mots a with
  | none => rw [view_none hm]; rfl
  | some x =>
    cases hv : w.view.vals a with
    | none => rw [view_none_iff h] at hv; rw [hv] at hm; simp at hm
    | some y => rfl

/-! ### Reallocation that copies -/

theorem mapData_spec {w : World (Comp ρ κ)} (hw : WInv w) (hc : w.Clean) (hd : w.Dflt fun c => c.items = []) {p : ProcId}
    (hp : (w.procs p).isSome) (σ : MotId → MotId) :
    ∃ w', mapData w p (Comp.rename σ) = some w' ∧ WInv w' ∧ w'.Clean ∧ (w'.Dflt fun c => c.items = []) ∧ w'.view.procs = w.view.procs ∧
      ∀ m, w'.view.vals m = (w.view.vals m).map fun x => if x.1 = p then (x.1, x.2.map (Comp.rename σ)) else x := by
  obtain ⟨pr, hpr⟩ := Option.isSome_iff_exists.mp hp
  have hpi := hw.procs p pr hpr
  have hw' := hw.update (pr' := { pr with data := pr.data.map (Comp.rename σ) }) (mots' := w.mots)
    (hpi.mots_congr (by simp) (fun _ _ => Iff.rfl)) (fun _ _ _ _ => Iff.rfl)
  refine ⟨w.setProc p (some { pr with data := pr.data.map (Comp.rename σ) }), by simp [mapData, hpr], hw', ?_, ?_,
    view_procs_set (pr' := { pr with data := pr.data.map (Comp.rename σ) }) hpr rfl w.mots, ?_⟩
  · refine hc.set (pr' := { pr with data := pr.data.map (Comp.rename σ) }) ?_ w.mots
    intro k hk hl
    have h1 := hc p pr hpr k hk hl
    have h2 := hd p pr hpr
    simp only [List.getElem?_map, h1, Option.map_some, Option.some.injEq]
    cases hdd : pr.dflt with
    | mk r items =>
      rw [hdd] at h2
      simp only at h2
      subst h2
      rfl
  · exact hd.set hpr (by rfl) w.mots
  · intro m
    match hm : w.mots m with
    | none => rw [view_none hm]; exact view_none hm
    | some (q, j) =>
      obtain ⟨prq, hprq⟩ := hw.mots m q j hm
      obtain ⟨n, hl, -⟩ := (hw.procs q prq hprq).ref m j hm
      rw [view_some hm hprq hl]
      by_cases hqp : q = p
      · subst hqp
        rw [hpr] at hprq; simp at hprq; subst hprq
        rw [view_some (w := w.setProc q _) hm (pr := { pr with data := pr.data.map (Comp.rename σ) }) (by simp [World.setProc]) hl]
        simp
      · rw [view_some (w := w.setProc p _) hm (pr := prq) (by simp [World.setProc, hqp, hprq]) hl]
        simp [hqp]

theorem addrsOf_rename (σ : MotId → MotId) (l : List (Comp ρ κ)) : addrsOf (l.map (Comp.rename σ)) = (addrsOf l).map σ := by
  simp [addrsOf, Comp.addrs, Comp.rename, List.flatMap_map, List.map_flatMap, Function.comp_def]

theorem nest_rename (σ : MotId → MotId) (v : MotId → Option (ProcId × List δ)) (l : List (Comp ρ κ)) :
    nest v (l.map (Comp.rename σ)) = nest (fun a => v (σ a)) l := by
  simp [nest, Comp.rename, Function.comp_def]

end Motive.Owner
