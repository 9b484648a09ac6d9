import Verif.Owner.Lemmas
import Verif.Owner.Dflt

/-! One lemma per kind of call. -/

namespace Motive.Owner

open Motive.Proc

variable {δ ρ κ : Type} {U : MotId → Bool} {A A' : Abs δ} {B B' : Abs (Comp ρ κ)}

/-- Calls that keep all addresses and create no child. -/
theorem Owned.mono (h : Owned U A B) (hA : ∀ a, A.vals a = none → A'.vals a = none) (hB : ∀ m, addrs B' m = addrs B m) :
    Owned U A' B' := by
  refine ⟨fun m => by rw [hB]; exact h.nodup m, fun m m' a => by rw [hB, hB]; exact h.disj m m' a,
    fun m a => by rw [hB]; exact h.inner m a, fun a ha => ?_⟩
  rcases h.owned a (fun hc => ha (hA a hc)) with h1 | ⟨m, hm⟩
  · exact Or.inl h1
  · exact Or.inr ⟨m, by rw [hB]; exact hm⟩

theorem nest_map (F : Option (ProcId × List δ) → Option (ProcId × List δ)) (v : MotId → Option (ProcId × List δ)) (l : List (Comp ρ κ)) :
    nest (fun a => F (v a)) l = (nest v l).map (NComp.mapValues F) := by
  simp [nest, NComp.mapValues, Function.comp_def]

theorem standing_spec {op : Op δ} (h : Standing U op) (A : Abs δ) :
    (absStep op A).procs = A.procs ∧ (∀ a, U a = false → (absStep op A).vals a = A.vals a) ∧
    (absStep op ⟨A.procs, fun m => if U m then A.vals m else none⟩).vals = fun a => if U a then (absStep op A).vals a else none := by
  cases op with
  | create p d cl => exact absurd h id
  | advance p f => exact absurd h id
  | destroyProc p => exact absurd h id
  | «initialize» m p vals =>
    simp only [Standing] at h
    simp only [absStep]
    by_cases hg : (A.procs p).isSome ∧ 0 < vals.length
    · simp only [if_pos hg, Abs.set]
      refine ⟨trivial, fun a ha => if_neg (by rintro rfl; simp [h] at ha), ?_⟩
      funext a
      by_cases ha : a = m <;> simp [ha, h]
    · simp only [if_neg hg]
      exact ⟨trivial, fun _ _ => trivial, trivial⟩
  | invalidate m =>
    simp only [Standing] at h
    simp only [absStep, Abs.set]
    refine ⟨trivial, fun a ha => if_neg (by rintro rfl; simp [h] at ha), ?_⟩
    funext a
    by_cases ha : a = m <;> simp [ha]
  | moveAssign d s =>
    obtain ⟨hd, hs⟩ := h
    simp only [absStep]
    by_cases hds : d = s
    · simp only [if_pos hds, Abs.set]
      refine ⟨trivial, fun a ha => if_neg (by rintro rfl; simp [hd] at ha), ?_⟩
      funext a
      by_cases ha : a = d <;> simp [ha]
    · simp only [if_neg hds, Abs.set]
      refine ⟨trivial, fun a ha => ?_, ?_⟩
      · rw [if_neg (by rintro rfl; simp [hs] at ha), if_neg (by rintro rfl; simp [hd] at ha)]
      · funext a
        by_cases ha : a = s
        · simp [ha]
        · by_cases hb : a = d <;> simp [ha, hb, hd, hs, hds]
  | moveConstruct d s =>
    obtain ⟨hd, hs⟩ := h
    simp only [absStep, hd, if_true]
    by_cases hds : d ≠ s ∧ A.vals d = none
    · simp only [if_pos hds, Abs.set]
      refine ⟨trivial, fun a ha => ?_, ?_⟩
      · rw [if_neg (by rintro rfl; simp [hs] at ha), if_neg (by rintro rfl; simp [hd] at ha)]
      · funext a
        by_cases ha : a = s
        · simp [ha]
        · by_cases hb : a = d <;> simp [ha, hb, hd, hs, hds.1]
    · simp only [if_neg hds]
      exact ⟨trivial, fun _ _ => trivial, trivial⟩
  | cloneFrom d s =>
    obtain ⟨hd, hs⟩ := h
    have key : ∀ v, (A.set d v).procs = A.procs ∧ (∀ a, U a = false → (A.set d v).vals a = A.vals a) ∧
        ((⟨A.procs, fun m => if U m then A.vals m else none⟩ : Abs δ).set d v).vals = fun a => if U a then (A.set d v).vals a else none := by
      intro v
      simp only [Abs.set]
      refine ⟨trivial, fun a ha => if_neg (by rintro rfl; simp [hd] at ha), ?_⟩
      funext a
      by_cases ha : a = d <;> simp [ha, hd]
    cases s with
    | none => exact key none
    | some s =>
      have hs' : U s = true := hs s rfl
      simp only [absStep, hs', if_true]
      by_cases hds : d = s
      · simp only [if_pos hds]; exact key none
      · simp only [if_neg hds]
        cases hv : A.vals s with
        | none => exact key none
        | some x =>
          obtain ⟨p, l⟩ := x
          simp only
          by_cases hc : A.procs p = some true
          · simp only [if_pos hc]; exact key _
          · simp only [if_neg hc]; exact key _
  | write m off v =>
    simp only [Standing] at h
    simp only [absStep, h, if_true]
    cases hv : A.vals m with
    | none => exact ⟨rfl, fun _ _ => rfl, rfl⟩
    | some x =>
      obtain ⟨p, l⟩ := x
      simp only
      by_cases hc : off < l.length
      · simp only [if_pos hc, Abs.set]
        refine ⟨trivial, fun a ha => if_neg (by rintro rfl; simp [h] at ha), ?_⟩
        funext a
        by_cases ha : a = m <;> simp [ha, h]
      · simp only [if_neg hc]
        exact ⟨trivial, fun _ _ => trivial, trivial⟩

/-! ### Changes of one slot -/

def nestItems (v : MotId → Option (ProcId × List δ)) (l : List (Item κ)) : List (NItem δ κ) := l.map fun i => ⟨i.info, v i.addr⟩

theorem nestItems_congr {v v' : MotId → Option (ProcId × List δ)} {l : List (Item κ)} (h : ∀ a ∈ l.map Item.addr, v a = v' a) :
    nestItems v l = nestItems v' l :=
  List.map_congr_left fun i hi => by rw [h i.addr (List.mem_map_of_mem hi)]

theorem split_at {β : Type} {l : List β} {k : Nat} {c : β} (h : l[k]? = some c) : ∃ pre post, l = pre ++ c :: post ∧ pre.length = k := by
  obtain ⟨hk, rfl⟩ := List.getElem?_eq_some_iff.mp h
  refine ⟨l.take k, l.drop (k + 1), ?_, by simp; omega⟩
  rw [← List.drop_eq_getElem_cons hk, List.take_append_drop]

theorem set_mid {β : Type} (pre post : List β) (c c' : β) : (pre ++ c :: post).set pre.length c' = pre ++ c' :: post := by
  simp

theorem modify_mid {β : Type} (pre post : List β) (c : β) (f : β → β) : (pre ++ c :: post).modify pre.length f = pre ++ f c :: post := by
  induction pre with
  | nil => rfl
  | cons x pre ih => simp [ih]

theorem insert_mid {β : Type} (pre post : List β) (c : β) : (pre ++ post).insertIdx pre.length c = pre ++ c :: post := by
  induction pre with
  | nil => rfl
  | cons x pre ih => simpa using ih

theorem edit_slot (h : Owned U A B) {m : MotId} {p : ProcId} {pre post : List (Comp ρ κ)} {r : ρ} {ipre mid mid' ipost : List (Item κ)}
    (hm : B.vals m = some (p, pre ++ ⟨r, ipre ++ mid ++ ipost⟩ :: post)) (hp : A'.procs = A.procs)
    (hkeep : ∀ a, a ∉ mid.map Item.addr → a ∉ mid'.map Item.addr → A'.vals a = A.vals a)
    (hdrop : ∀ a ∈ mid.map Item.addr, a ∉ mid'.map Item.addr → A'.vals a = none)
    (hnew : ∀ a ∈ mid'.map Item.addr, a ∈ mid.map Item.addr ∨ (U a = false ∧ ∀ x, a ∉ addrs B x))
    (hnd : (mid'.map Item.addr).Nodup) :
    Owned U A' (B.set m (some (p, pre ++ ⟨r, ipre ++ mid' ++ ipost⟩ :: post))) ∧
      nestedOf U A' (B.set m (some (p, pre ++ ⟨r, ipre ++ mid' ++ ipost⟩ :: post))) =
        (nestedOf U A B).set m (some (p, nest A.vals pre ++ ⟨r, nestItems A.vals ipre ++ nestItems A'.vals mid' ++ nestItems A.vals ipost⟩ ::
          nest A.vals post)) := by
  have ha : addrs B m = addrsOf pre ++ (ipre.map Item.addr ++ mid.map Item.addr ++ ipost.map Item.addr ++ addrsOf post) := by
    unfold addrs; rw [hm]; simp [addrsOf, Comp.addrs]
  have ha' : addrsIn (some (p, pre ++ (⟨r, ipre ++ mid' ++ ipost⟩ : Comp ρ κ) :: post)) =
      addrsOf pre ++ (ipre.map Item.addr ++ mid'.map Item.addr ++ ipost.map Item.addr ++ addrsOf post) := by
    simp [addrsIn, addrsOf, Comp.addrs]
  have hn := h.nodup m
  rw [ha] at hn
  -- the other operations of the matrix are at other addresses
  have hother : ∀ a, a ∈ addrsOf pre ∨ a ∈ ipre.map Item.addr ∨ a ∈ ipost.map Item.addr ∨ a ∈ addrsOf post →
      a ∉ mid.map Item.addr ∧ a ∉ mid'.map Item.addr := by
    intro a hcase
    have h1 : a ∉ mid.map Item.addr := by
      intro hc
      simp only [List.nodup_append', List.disjoint_left, List.mem_append] at hn
      rcases hcase with h1 | h1 | h1 | h1
      · exact hn.2.2 h1 (Or.inl (Or.inl (Or.inr hc)))
      · exact hn.2.1.1.1.2.2 h1 hc
      · exact hn.2.1.1.2.2 (Or.inr hc) h1
      · exact hn.2.1.2.2 (Or.inl (Or.inr hc)) h1
    refine ⟨h1, fun hc => ?_⟩
    rcases hnew a hc with h2 | h2
    · exact h1 h2
    · refine h2.2 m ?_
      rw [ha]
      simp only [List.mem_append]
      tauto
  have hsame : ∀ a, a ∈ addrsOf pre ∨ a ∈ ipre.map Item.addr ∨ a ∈ ipost.map Item.addr ∨ a ∈ addrsOf post → A'.vals a = A.vals a :=
    fun a hcase => hkeep a (hother a hcase).1 (hother a hcase).2
  have hup := h.update (A' := A') (m := m) (v := some (p, pre ++ ⟨r, ipre ++ mid' ++ ipost⟩ :: post)) hp ?_ ?_ ?_ ?_
  · refine ⟨hup.1, hup.2.trans ?_⟩
    simp only [Option.map_some]
    congr 3
    have e : nest A'.vals (pre ++ (⟨r, ipre ++ mid' ++ ipost⟩ : Comp ρ κ) :: post) =
        nest A'.vals pre ++ ⟨r, nestItems A'.vals ipre ++ nestItems A'.vals mid' ++ nestItems A'.vals ipost⟩ :: nest A'.vals post := by
      simp [nest, nestItems]
    rw [e, nest_congr (v' := A.vals) fun a h1 => hsame a (Or.inl h1), nest_congr (l := post) (v' := A.vals) fun a h1 => hsame a (Or.inr (Or.inr (Or.inr h1))),
      nestItems_congr (l := ipre) (v' := A.vals) fun a h1 => hsame a (Or.inr (Or.inl h1)),
      nestItems_congr (l := ipost) (v' := A.vals) fun a h1 => hsame a (Or.inr (Or.inr (Or.inl h1)))]
  · rw [ha']
    have hoth : ∀ a ∈ mid'.map Item.addr, a ∉ addrsOf pre ∧ a ∉ ipre.map Item.addr ∧ a ∉ ipost.map Item.addr ∧ a ∉ addrsOf post :=
      fun a h1 => ⟨fun hc => (hother a (Or.inl hc)).2 h1, fun hc => (hother a (Or.inr (Or.inl hc))).2 h1,
        fun hc => (hother a (Or.inr (Or.inr (Or.inl hc)))).2 h1, fun hc => (hother a (Or.inr (Or.inr (Or.inr hc)))).2 h1⟩
    simp only [List.nodup_append', List.disjoint_left, List.mem_append] at hn ⊢
    refine ⟨hn.1, ⟨⟨⟨hn.2.1.1.1.1, hnd, fun a h1 h2 => (hoth a h2).2.1 h1⟩, hn.2.1.1.2.1, ?_⟩, hn.2.1.2.1, ?_⟩, ?_⟩
    · rintro a (h1 | h1) h2
      · exact hn.2.1.1.2.2 (Or.inl h1) h2
      · exact (hoth a h1).2.2.1 h2
    · rintro a ((h1 | h1) | h1) h2
      · exact hn.2.1.2.2 (Or.inl (Or.inl h1)) h2
      · exact (hoth a h1).2.2.2 h2
      · exact hn.2.1.2.2 (Or.inr h1) h2
    · rintro a h1 (((h2 | h2) | h2) | h2)
      · exact hn.2.2 h1 (Or.inl (Or.inl (Or.inl h2)))
      · exact (hoth a h2).1 h1
      · exact hn.2.2 h1 (Or.inl (Or.inr h2))
      · exact hn.2.2 h1 (Or.inr h2)
  · intro a h1
    have old : a ∈ addrs B m → U a = false ∧ ∀ m', m' ≠ m → a ∉ addrs B m' := fun h2 =>
      ⟨h.inner m a h2, fun m' hm' hc => hm' (h.disj m' m a hc h2)⟩
    rw [ha'] at h1
    simp only [List.mem_append] at h1
    by_cases h2 : a ∈ mid'.map Item.addr
    · rcases hnew a h2 with h3 | h3
      · refine old ?_
        rw [ha]
        simp only [List.mem_append]
        tauto
      · exact ⟨h3.1, fun m' _ => h3.2 m'⟩
    · refine old ?_
      rw [ha]
      simp only [List.mem_append]
      tauto
  · intro a h1 h2
    rw [ha] at h1
    rw [ha'] at h2
    simp only [List.mem_append] at h1 h2
    exact hdrop a (by tauto) (by tauto)
  · intro a h1 h2
    rw [ha] at h1
    rw [ha'] at h2
    simp only [List.mem_append] at h1 h2
    exact hkeep a (by tauto) (by tauto)

end Motive.Owner
