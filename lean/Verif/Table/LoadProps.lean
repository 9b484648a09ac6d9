import Verif.Table.Load
import Mathlib.Data.List.Dedup
/-!
# C47: what the look-ups of an animation table return
-/

namespace Motive.Table

variable {A : Type}

/-- The states of a table after a history of `Load` calls with one loader; `done` are the listed positions, in order. -/
inductive Loaded (load : String → Option A) : List (Entry A) → State A → Prop
  | new : Loaded load [] {}
  | load {done s} (d : Describer A) : Loaded load done s → Loaded load (done ++ d.entries.flatten) (s.load load d)

/-! ### Names -/

/-- The names are distinct, one for each animation. -/
def Keys (s : State A) : Prop := (s.names.map Prod.fst).Nodup ∧ s.names.length = s.anims.length

theorem find_none {names : List (String × ℕ)} {n : String} : find names n = none ↔ n ∉ names.map Prod.fst := by
  unfold find
  rw [Option.map_eq_none_iff, List.find?_eq_none]
  simp only [decide_eq_true_eq, List.mem_map, not_exists, not_and]

theorem place_keys (load : String → Option A) (s : State A) (e : Entry A) (h : Keys s) : Keys (s.place load e).1 := by
  unfold State.place
  by_cases hn : e.name = ""
  · rw [if_pos hn]; exact h
  · rw [if_neg hn]
    cases hf : find s.names e.name with
    | some k => exact h
    | none =>
      simp only
      have hnot := find_none.mp hf
      have hadd : ∀ k : ℕ, ((s.names ++ [(e.name, k)]).map Prod.fst).Nodup := by
        intro k
        rw [List.map_append]
        refine List.Nodup.append h.1 (List.nodup_singleton _) ?_
        intro x hx hx'
        rw [List.map_singleton, List.mem_singleton] at hx'
        subst hx'
        exact hnot hx
      cases e.embedded with
      | some a => exact ⟨hadd _, by simp [h.2]⟩
      | none =>
        cases load e.name with
        | none => exact h
        | some a => exact ⟨hadd _, by simp [h.2]⟩

theorem placeAll_keys (load : String → Option A) (es : List (Entry A)) : ∀ s : State A, Keys s → Keys (s.placeAll load es).1 := by
  induction es with
  | nil => intro s h; exact h
  | cons e es ih => intro s h; exact ih _ (place_keys load s e h)

theorem placeLists_keys (load : String → Option A) (ls : List (List (Entry A))) : ∀ s : State A, Keys s → Keys (s.placeLists load ls).1 := by
  induction ls with
  | nil => intro s h; exact h
  | cons e es ih => intro s h; exact ih _ (placeAll_keys load e s h)

theorem load_anims (load : String → Option A) (s : State A) (d : Describer A) : ∃ l, (s.load load d).anims = s.anims ++ l :=
  placeLists_anims load d.entries { s with ok := true }

theorem Loaded.keys {load : String → Option A} {done : List (Entry A)} {s : State A} (h : Loaded load done s) : Keys s := by
  induction h with
  | new => exact ⟨List.nodup_nil, rfl⟩
  | @load done s d h ih =>
    exact placeLists_keys load d.entries { s with ok := true } ih

theorem Loaded.inv {load : String → Option A} {done : List (Entry A)} {s : State A} (h : Loaded load done s)
    (hcap : s.anims.length ≤ kInvalidAnimIndex) : Inv load done s := by
  induction h with
  | new => exact ⟨by simp [find], by simp [firstOf], by simp [find], by simp, by simp, rfl⟩
  | @load done s d h ih =>
    obtain ⟨l, hl⟩ := load_anims load s d
    have i := ih (by rw [hl, List.length_append] at hcap; omega)
    have q := (placeLists_inv load d.entries done { s with ok := true } ⟨i.1, i.2, i.3, i.4, i.5, i.6⟩ hcap).1
    exact ⟨q.1, q.2, q.3, q.4, q.5, q.6⟩

/-! ### Theorems -/

theorem entries_get (d : Describer A) (o i : ℕ) (ho : o < d.numObjects) (hi : i < d.numAnims o) :
    d.entries[o]? = some ((List.range (d.numAnims o)).map fun i => d.entry o i) ∧
      ((List.range (d.numAnims o)).map fun i => d.entry o i)[i]? = some (d.entry o i) := by
  constructor
  · simp [Describer.entries, ho]
  · simp [hi]

/-- The positions of a table listed up to and including position `i` of object `o`. -/
def Describer.upTo (d : Describer A) (o i : ℕ) : List (Entry A) :=
  ((List.range o).flatMap fun o' => (List.range (d.numAnims o')).map fun i' => d.entry o' i') ++
    (List.range (i + 1)).map fun i' => d.entry o i'

theorem upTo_eq (d : Describer A) (o i : ℕ) (ho : o < d.numObjects) (hi : i < d.numAnims o) :
    (d.entries.take o).flatten ++ ((List.range (d.numAnims o)).map fun i => d.entry o i).take i ++ [d.entry o i] = d.upTo o i := by
  unfold Describer.upTo Describer.entries
  rw [← List.map_take, ← List.map_take, List.take_range, List.take_range, Nat.min_eq_left (Nat.le_of_lt ho), Nat.min_eq_left (Nat.le_of_lt hi), List.append_assoc]
  congr 1
  rw [List.range_succ, List.map_append]
  rfl

/-- **C47** (positions). After any history of loads with at most 65535 different animations, the animation of every position of the last
table is the first one listed under its name, in this table up to that position or in a table loaded before; it is null if the position
has no name or nothing listed under the name so far could be loaded. No look-up of a listed position fails. -/
theorem C47_query (load : String → Option A) (done : List (Entry A)) (s : State A) (h : Loaded load done s) (d : Describer A)
    (hcap : (s.load load d).anims.length ≤ kInvalidAnimIndex) (o i : ℕ) (ho : o < d.numObjects) (hi : i < d.numAnims o) :
    (s.load load d).query o i =
      some (if (d.entry o i).name = "" then none else firstOf load (d.entry o i).name (done ++ d.upTo o i)) := by
  obtain ⟨l, hl⟩ := load_anims load s d
  have i0 := h.inv (by rw [hl, List.length_append] at hcap; omega)
  obtain ⟨e1, e2⟩ := entries_get d o i ho hi
  obtain ⟨r, k, r1, r2, r3⟩ := (placeLists_inv load d.entries done { s with ok := true } ⟨i0.1, i0.2, i0.3, i0.4, i0.5, i0.6⟩ hcap).2.2.1 o i _ _ e1 e2
  have hr : resultOf load (done ++ (d.entries.take o).flatten ++ ((List.range (d.numAnims o)).map fun i => d.entry o i).take i) (d.entry o i) =
      (if (d.entry o i).name = "" then none else firstOf load (d.entry o i).name (done ++ d.upTo o i)) := by
    unfold resultOf
    rw [← upTo_eq d o i ho hi]
    simp only [List.append_assoc]
  rw [hr] at r3
  have q : (s.load load d).query o i = if k = kInvalidAnimIndex then some none else
      ((s.load load d).anims[k]?).map some := by
    unfold State.query
    have : (s.load load d).indices[o]? = some r := r1
    rw [this]
    simp only [r2]
  rw [q]
  generalize (if (d.entry o i).name = "" then none else firstOf load (d.entry o i).name (done ++ d.upTo o i)) = res at r3 ⊢
  cases res with
  | none =>
    have hk : k = kInvalidAnimIndex := r3
    rw [if_pos hk]
  | some a =>
    rw [if_neg (Nat.ne_of_lt r3.1)]
    have : (s.load load d).anims[k]? = some a := r3.2
    rw [this]; rfl

/-- **C47** (success). `Load` reports success exactly when every named position of the table has an animation. -/
theorem C47_success (load : String → Option A) (done : List (Entry A)) (s : State A) (h : Loaded load done s) (d : Describer A)
    (hcap : (s.load load d).anims.length ≤ kInvalidAnimIndex) :
    (s.load load d).ok = true ↔
      ∀ o i, o < d.numObjects → i < d.numAnims o → (d.entry o i).name ≠ "" → (s.load load d).query o i ≠ some none := by
  obtain ⟨l, hl⟩ := load_anims load s d
  have i0 := h.inv (by rw [hl, List.length_append] at hcap; omega)
  have hok := (placeLists_inv load d.entries done { s with ok := true } ⟨i0.1, i0.2, i0.3, i0.4, i0.5, i0.6⟩ hcap).2.2.2
  have hok' : (s.load load d).ok = true ↔ _ := hok
  rw [hok']
  have hr : ∀ o i, o < d.numObjects → i < d.numAnims o →
      resultOf load (done ++ (d.entries.take o).flatten ++ ((List.range (d.numAnims o)).map fun i => d.entry o i).take i) (d.entry o i) =
      (if (d.entry o i).name = "" then none else firstOf load (d.entry o i).name (done ++ d.upTo o i)) := by
    intro o i ho hi
    unfold resultOf
    rw [← upTo_eq d o i ho hi]
    simp only [List.append_assoc]
  constructor
  · rintro ⟨-, h2⟩ o i ho hi hne
    obtain ⟨e1, e2⟩ := entries_get d o i ho hi
    rw [C47_query load done s h d hcap o i ho hi, ← hr o i ho hi]
    intro hc
    exact h2 o i _ _ e1 e2 hne (Option.some.inj hc)
  · intro h2
    refine ⟨rfl, ?_⟩
    intro o i l e hl he hne
    have ho : o < d.numObjects := by
      have := (List.getElem?_eq_some_iff.mp hl).1
      simpa [Describer.entries] using this
    have hl' : l = (List.range (d.numAnims o)).map fun i => d.entry o i := by
      have : d.entries[o]? = some ((List.range (d.numAnims o)).map fun i => d.entry o i) := by simp [Describer.entries, ho]
      rw [this] at hl
      exact (Option.some.inj hl).symm
    subst hl'
    have hi : i < d.numAnims o := by
      have := (List.getElem?_eq_some_iff.mp he).1
      simpa using this
    have he' : e = d.entry o i := by
      rw [(entries_get d o i ho hi).2] at he
      exact (Option.some.inj he).symm
    subst he'
    rw [hr o i ho hi]
    intro hc
    apply h2 o i ho hi hne
    rw [C47_query load done s h d hcap o i ho hi, hc]

/-- **C47** (dimensions). The table has the listed objects, each with the listed number of positions; any other look-up fails. -/
theorem C47_dimensions (load : String → Option A) (s : State A) (d : Describer A) :
    (s.load load d).indices.map List.length = (List.range d.numObjects).map d.numAnims := by
  have key : ∀ (ls : List (List (Entry A))) (s : State A), (s.placeLists load ls).2.map List.length = ls.map List.length := by
    have k1 : ∀ (es : List (Entry A)) (s : State A), (s.placeAll load es).2.length = es.length := by
      intro es
      induction es with
      | nil => intro s; rfl
      | cons e es ih => intro s; simp [State.placeAll, ih]
    intro ls
    induction ls with
    | nil => intro s; rfl
    | cons l ls ih => intro s; simp [State.placeLists, ih, k1]
  have := key d.entries { s with ok := true }
  refine Eq.trans this ?_
  simp [Describer.entries, Function.comp_def]

/-- **C47** (names). A look-up by name finds the first animation listed under this name, and nothing if there is none. -/
theorem C47_query_by_name (load : String → Option A) (done : List (Entry A)) (s : State A) (h : Loaded load done s)
    (hcap : s.anims.length ≤ kInvalidAnimIndex) (name : String) :
    s.queryByName name = some (if name = "" then none else firstOf load name done) := by
  have i := h.inv hcap
  unfold State.queryByName
  by_cases hn : name = ""
  · rw [hn, i.empty]; simp
  · rw [if_neg hn]
    cases hf : find s.names name with
    | none => rw [i.missing name hn hf]
    | some k =>
      obtain ⟨a, h1, h2⟩ := i.found name k hf
      simp only [h1, h2, Option.map_some]

/-- **C47** (sharing). No file is loaded successfully twice, however often it is listed. -/
theorem C47_loaded_once (load : String → Option A) (done : List (Entry A)) (s : State A) (h : Loaded load done s)
    (hcap : s.anims.length ≤ kInvalidAnimIndex) : (s.log.filter fun n => (load n).isSome).Nodup :=
  (h.inv hcap).log

/-- **C47** (sharing). The table holds one animation for each different name under which something could be loaded. -/
theorem C47_unique (load : String → Option A) (done : List (Entry A)) (s : State A) (h : Loaded load done s)
    (hcap : s.anims.length ≤ kInvalidAnimIndex) (names : List String) (hnames : names.Nodup)
    (hmem : ∀ n, n ∈ names ↔ n ≠ "" ∧ firstOf load n done ≠ none) : s.anims.length = names.length := by
  have i := h.inv hcap
  obtain ⟨k1, k2⟩ := h.keys
  have : (s.names.map Prod.fst).Perm names := by
    refine (List.perm_ext_iff_of_nodup k1 hnames).mpr ?_
    intro n
    rw [hmem]
    constructor
    · intro hn
      have hs : find s.names n ≠ none := fun hc => find_none.mp hc hn
      obtain ⟨k, hk⟩ := Option.ne_none_iff_exists'.mp hs
      obtain ⟨a, -, h2⟩ := i.found n k hk
      refine ⟨?_, by rw [h2]; simp⟩
      rintro rfl
      rw [i.empty] at hk
      simp at hk
    · rintro ⟨h1, h2⟩
      by_contra hc
      exact h2 (i.missing n h1 (find_none.mpr hc))
  rw [← k2, ← this.length_eq, List.length_map]

/-- **C47** (lists). What a table described by FlatBuffers lists at each position: the vector of sources wins over the vector of file names. -/
theorem C47_table_entries (lists : List (ListFb A)) (o : ℕ) (l : ListFb A) (hl : lists[o]? = some l) :
    (tableFb (some lists)).numObjects = lists.length ∧
      (∀ as, l.anims = some as → (tableFb (some lists)).numAnims o = as.length ∧
        ∀ i, (as[i]? = some .none → ((tableFb (some lists)).entry o i) = ⟨"", none⟩) ∧
          (∀ n, as[i]? = some (.file n) → ((tableFb (some lists)).entry o i) = ⟨n, none⟩) ∧
          (∀ n a, as[i]? = some (.embedded n a) → ((tableFb (some lists)).entry o i) = ⟨n, some a⟩)) ∧
      (∀ fs, l.anims = none → l.files = some fs → (tableFb (some lists)).numAnims o = fs.length ∧
        ∀ i n, fs[i]? = some n → ((tableFb (some lists)).entry o i) = ⟨n, none⟩) ∧
      (l.anims = none → l.files = none → (tableFb (some lists)).numAnims o = 0) := by
  refine ⟨rfl, ?_, ?_, ?_⟩
  · intro as has
    refine ⟨by simp [tableFb, hl, listLen, has], ?_⟩
    intro i
    refine ⟨?_, ?_, ?_⟩
    · intro hi; simp [Describer.entry, tableFb, hl, listRigAnim, listFileName, has, hi]
    · intro n hi; simp [Describer.entry, tableFb, hl, listRigAnim, listFileName, has, hi]
    · intro n a hi; simp [Describer.entry, tableFb, hl, listRigAnim, has, hi]
  · intro fs h1 h2
    refine ⟨by simp [tableFb, hl, listLen, h1, h2], ?_⟩
    intro i n hi
    simp [Describer.entry, tableFb, hl, listRigAnim, listFileName, h1, h2, hi]
  · intro h1 h2
    simp [tableFb, hl, listLen, h1, h2]

/-- **C47** (lists). The other ways to describe a table: file names, and lists, which are tables of one object unless they are empty. -/
theorem C47_names_entries (t : List (List String)) (l : List String) (f : ListFb A) :
    (tableNames t : Describer A).entries = t.map (List.map fun n => ⟨n, none⟩) ∧
      (listNames l : Describer A).entries = (tableNames (if l = [] then [] else [l]) : Describer A).entries ∧
      (listFb f).entries = (tableFb (some (if listLen (some f) = 0 then [] else [f]))).entries := by
  refine ⟨?_, ?_, ?_⟩
  · unfold Describer.entries tableNames
    apply List.ext_getElem?
    intro o
    simp only [List.getElem?_map]
    by_cases ho : o < t.length
    · rw [List.getElem?_eq_getElem (by simpa using ho), List.getElem?_eq_getElem ho]
      simp only [List.getElem_range, Option.map_some]
      congr 1
      apply List.ext_getElem?
      intro i
      simp only [List.getElem?_map, List.getD_eq_getElem?_getD, List.getElem?_eq_getElem ho, Option.getD_some]
      by_cases hi : i < (t[o]).length
      · rw [List.getElem?_eq_getElem (by simpa using hi), List.getElem?_eq_getElem hi]
        simp only [List.getElem_range, Option.map_some, Describer.entry]
        simp [ho, hi]
      · rw [List.getElem?_eq_none (by simpa using hi), List.getElem?_eq_none (by simpa using hi)]; rfl
    · rw [List.getElem?_eq_none (by simpa using ho), List.getElem?_eq_none (by simpa using ho)]; rfl
  · unfold Describer.entries listNames tableNames Describer.entry
    cases l with
    | nil => rfl
    | cons a l => simp
  · unfold Describer.entries listFb tableFb Describer.entry
    by_cases h : listLen (some f) = 0 <;> simp [h]

/-! ### More than 65535 animations -/

theorem placeAll_fresh (load : String → Option A) (es : List (String × A)) : ∀ s : State A,
    (∀ e ∈ es, e.1 ≠ "" ∧ find s.names e.1 = none) → (es.map Prod.fst).Nodup →
    (s.placeAll load (es.map fun e => ⟨e.1, some e.2⟩)).1.anims = s.anims ++ es.map Prod.snd ∧
      ∀ i, i < es.length → (s.placeAll load (es.map fun e => ⟨e.1, some e.2⟩)).2[i]? = some ((s.anims.length + i) % 65536) := by
  induction es with
  | nil => intro s _ _; simp [State.placeAll]
  | cons e es ih =>
    intro s h hnd
    obtain ⟨h1, h2⟩ := h e (by simp)
    rw [List.map_cons, List.nodup_cons] at hnd
    have hp : s.place load ⟨e.1, some e.2⟩ =
        ({ s with anims := s.anims ++ [e.2], names := s.names ++ [(e.1, s.anims.length % 65536)] }, s.anims.length % 65536) := by
      unfold State.place
      simp [h1, h2]
    obtain ⟨q1, q2⟩ := ih { s with anims := s.anims ++ [e.2], names := s.names ++ [(e.1, s.anims.length % 65536)] } (by
      intro e' he'
      refine ⟨(h e' (by simp [he'])).1, ?_⟩
      simp only [find_append, (h e' (by simp [he'])).2]
      rw [if_neg]
      · rfl
      · intro hc
        exact hnd.1 (List.mem_map.mpr ⟨e', he', hc.symm⟩)) hnd.2
    rw [List.map_cons]
    simp only [State.placeAll, hp]
    refine ⟨by rw [q1]; simp, ?_⟩
    intro i hi
    cases i with
    | zero => simp
    | succ i =>
      rw [List.getElem?_cons_succ, q2 i (by simpa using hi)]
      simp only [List.length_append, List.length_singleton]
      congr 2
      omega

/-- **C47** (disagreement). With more than 65535 different animations the look-ups are wrong, although everything loads: the animation
listed after 65535 others cannot be found, and each animation `i + 65536` is taken for animation `i`. -/
theorem C47_too_many (load : String → Option A) (es : List (String × A)) (hne : ∀ e ∈ es, e.1 ≠ "") (hnd : (es.map Prod.fst).Nodup) :
    let s : State A := ({} : State A).load load (listFb ⟨some (es.map fun e => .embedded e.1 e.2), none⟩)
    (65535 < es.length → s.query 0 65535 = some none) ∧
      ∀ i, i < 65535 → i + 65536 < es.length → s.query 0 (i + 65536) = s.query 0 i := by
  intro s
  have he : 0 < es.length → (listFb ⟨some (es.map fun e => Source.embedded e.1 e.2), none⟩ : Describer A).entries =
      [es.map fun e => (⟨e.1, some e.2⟩ : Entry A)] := by
    intro hpos
    have hlen : listLen (some (⟨some (es.map fun e => Source.embedded e.1 e.2), none⟩ : ListFb A)) = es.length := by simp [listLen]
    unfold Describer.entries listFb Describer.entry
    simp only [hlen]
    rw [if_neg (by omega)]
    simp only [List.range_one, List.map_cons, List.map_nil, List.cons.injEq, and_true]
    apply List.ext_getElem?
    intro i
    by_cases hi : i < es.length
    · simp [listRigAnim, hi]
    · simp [hi]
  have hs : ∀ i, i < es.length → s.query 0 i = if i % 65536 = 65535 then some none else (es[i % 65536]?).map fun e => some e.2 := by
    intro i hi
    obtain ⟨p1, p2⟩ := placeAll_fresh load es { ({} : State A) with ok := true } (fun e h => ⟨hne e h, rfl⟩) hnd
    have hl : s.indices = [(({ ({} : State A) with ok := true } : State A).placeAll load (es.map fun e => ⟨e.1, some e.2⟩)).2] := by
      change (({ ({} : State A) with ok := true } : State A).placeLists load _).2 = _
      rw [he (by omega)]; rfl
    have ha : s.anims = es.map Prod.snd := by
      have : s.anims = (({ ({} : State A) with ok := true } : State A).placeLists load
          (listFb ⟨some (es.map fun e => Source.embedded e.1 e.2), none⟩ : Describer A).entries).1.anims := rfl
      rw [this, he (by omega)]
      exact p1
    unfold State.query
    rw [hl]
    simp only [List.getElem?_cons_zero]
    have p2i := p2 i hi
    simp only [List.length_nil, Nat.zero_add] at p2i
    simp only [p2i, ha, kInvalidAnimIndex, List.getElem?_map, Option.map_map, Function.comp_def]
  constructor
  · intro h
    rw [hs 65535 h]; simp
  · intro i hi h
    rw [hs _ h, hs i (by omega), Nat.add_mod_right]

/-! ### Examples -/

/-- A loader that knows two files. -/
def sampleLoad : String → Option ℕ := fun n => if n = "walk" then some 1 else if n = "run" then some 2 else none

/-- A table of two objects; one file cannot be loaded and one animation is embedded. -/
def sampleTable : Describer ℕ :=
  tableFb (some [⟨some [.file "walk", .none, .embedded "jump" 7], none⟩, ⟨none, some ["run", "missing", "walk", "jump", ""]⟩])

/-- The hypotheses of the theorems are met: `walk` is loaded once for two objects and the second object finds the embedded animation. -/
example :
    let s := ({} : State ℕ).load sampleLoad sampleTable
    s.anims.length ≤ kInvalidAnimIndex ∧ s.anims = [1, 7, 2] ∧ s.query 0 0 = some (some 1) ∧ s.query 0 1 = some none ∧
      s.query 1 1 = some none ∧ s.query 1 2 = some (some 1) ∧ s.query 1 3 = some (some 7) ∧ s.query 1 5 = none ∧ s.ok = false ∧
      s.log = ["walk", "run", "missing"] ∧ s.queryByName "run" = some (some 2) ∧ s.queryByName "missing" = some none := by
  decide +kernel

example : Loaded sampleLoad ([] ++ sampleTable.entries.flatten) (({} : State ℕ).load sampleLoad sampleTable) := .load sampleTable .new

/-- The disagreement is met: there are lists of more than 65536 different names. -/
example : ∃ es : List (String × ℕ), (∀ e ∈ es, e.1 ≠ "") ∧ (es.map Prod.fst).Nodup ∧ 65540 < es.length := by
  refine ⟨(List.range 65541).map fun i => (String.ofList (List.replicate (i + 1) 'a'), i), ?_, ?_, by simp⟩
  · intro e he
    obtain ⟨i, -, rfl⟩ := List.mem_map.mp he
    intro hc
    have := congrArg String.length hc
    simp at this
  · rw [List.map_map]
    refine List.Nodup.map ?_ List.nodup_range
    intro i j hij
    have := congrArg String.length hij
    simpa using this

end Motive.Table
