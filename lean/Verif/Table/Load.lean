import Mathlib.Data.List.Basic
import Mathlib.Data.List.Nodup
/-!
# Model of the loading of `AnimTable` (include/motive/anim_table.h, src/motive/anim_table.cpp)

`A` is the type of animations, `RigAnim`. The user's `load_fn` followed by `RigAnimFromFlatBuffers` is a partial function from file names to
animations. The decoding of FlatBuffers is not modelled; an embedded animation is given by its name and content. An embedded animation
without a name dereferences null (anim_table.cpp:219) and is left out.
-/

namespace Motive.Table

variable {A : Type}

/-- `AnimSource` (schemas/anim_list.fbs), with its union. -/
inductive Source (A : Type) where
  | none
  | file (name : String)
  | embedded (name : String) (a : A)

/-- `AnimListFb`: its two vectors can be absent. -/
structure ListFb (A : Type) where
  anims : Option (List (Source A))
  files : Option (List String)

/-- `TableDescriberInterface` (anim_table.cpp:25-32). -/
structure Describer (A : Type) where
  numObjects : ℕ
  numAnims : ℕ → ℕ
  fileName : ℕ → ℕ → Option String
  rigAnim : ℕ → ℕ → Option (String × A)

/-- `AnimListLen` (anim_table.cpp:34-45). -/
def listLen : Option (ListFb A) → ℕ
  | none => 0
  | some l => match l.anims with
    | some as => as.length
    | none => match l.files with
      | some fs => fs.length
      | none => 0

/-- `AnimListFileName` (anim_table.cpp:47-64). -/
def listFileName (l : Option (ListFb A)) (i : ℕ) : Option String :=
  match l with
  | none => none
  | some l => match l.anims with
    | some as => match as[i]? with
      | some (.file name) => some name
      | _ => none
    | none => match l.files with
      | some fs => fs[i]?
      | none => none

/-- `AnimListRigAnimFb` (anim_table.cpp:66-78). -/
def listRigAnim (l : Option (ListFb A)) (i : ℕ) : Option (String × A) :=
  match l with
  | none => none
  | some l => match l.anims with
    | some as => match as[i]? with
      | some (.embedded name a) => some (name, a)
      | _ => none
    | none => none

/-- `AnimTableFbDescriber` (anim_table.cpp:80-104); an element of the vector of lists is never null. -/
def tableFb (lists : Option (List (ListFb A))) : Describer A where
  numObjects := (lists.map List.length).getD 0
  numAnims o := listLen (lists.bind fun l => l[o]?)
  fileName o i := listFileName (lists.bind fun l => l[o]?) i
  rigAnim o i := listRigAnim (lists.bind fun l => l[o]?) i

/-- `AnimListFbDescriber` (anim_table.cpp:106-121). -/
def listFb (l : ListFb A) : Describer A where
  numObjects := if listLen (some l) = 0 then 0 else 1
  numAnims _ := listLen (some l)
  fileName _ i := listFileName (some l) i
  rigAnim _ i := listRigAnim (some l) i

/-- `TableFileNamesDescriber` (anim_table.cpp:123-143). -/
def tableNames (t : List (List String)) : Describer A where
  numObjects := t.length
  numAnims o := (t.getD o []).length
  fileName o i := (t.getD o [])[i]?
  rigAnim _ _ := none

/-- `ListFileNamesDescriber` (anim_table.cpp:145-163). -/
def listNames (l : List String) : Describer A where
  numObjects := if l.length = 0 then 0 else 1
  numAnims _ := l.length
  fileName _ i := l[i]?
  rigAnim _ _ := none

/-- `kInvalidAnimIndex` (anim_table.h:137). -/
def kInvalidAnimIndex : ℕ := 65535

/-- `AnimTable` (anim_table.h:159-174), and two ghosts: `ok` is `success` and `log` are the file names passed to `load_fn`. -/
structure State (A : Type) where
  indices : List (List ℕ) := []
  names : List (String × ℕ) := []
  anims : List A := []
  ok : Bool := true
  log : List String := []

/-- `name_map_.find`. -/
def find (names : List (String × ℕ)) (name : String) : Option ℕ := (names.find? fun x => x.1 = name).map Prod.snd

/-- One position of the table: the name and what can be loaded for it. -/
structure Entry (A : Type) where
  name : String
  embedded : Option A

/-- The name and the embedded animation of a position (anim_table.cpp:217-220). -/
def Describer.entry (d : Describer A) (o i : ℕ) : Entry A :=
  match d.rigAnim o i with
  | some (name, a) => ⟨name, some a⟩
  | none => ⟨(d.fileName o i).getD "", none⟩

/-- The body of the inner loop (anim_table.cpp:214-252): also returns what it stores in `list[anim_idx]`. -/
def State.place (load : String → Option A) (s : State A) (e : Entry A) : State A × ℕ :=
  if e.name = "" then (s, kInvalidAnimIndex)
  else match find s.names e.name with
    | some k => (s, k)
    | none =>
      let s' := if e.embedded.isSome then s else { s with log := s.log ++ [e.name] }
      match (match e.embedded with | some a => some a | none => load e.name) with
      | none => ({ s' with ok := false }, kInvalidAnimIndex)
      | some a =>
        let k := s.anims.length % 65536
        ({ s' with anims := s.anims ++ [a], names := s.names ++ [(e.name, k)] }, k)

/-- The inner loop (anim_table.cpp:213-253). -/
def State.placeAll (load : String → Option A) (s : State A) : List (Entry A) → State A × List ℕ
  | [] => (s, [])
  | e :: es =>
    let p := s.place load e
    let q := p.1.placeAll load es
    (q.1, p.2 :: q.2)

/-- The outer loop (anim_table.cpp:205-254). -/
def State.placeLists (load : String → Option A) (s : State A) : List (List (Entry A)) → State A × List (List ℕ)
  | [] => (s, [])
  | l :: ls =>
    let p := s.placeAll load l
    let q := p.1.placeLists load ls
    (q.1, p.2 :: q.2)

/-- The positions of the table, in the order of the loops. -/
def Describer.entries (d : Describer A) : List (List (Entry A)) :=
  (List.range d.numObjects).map fun o => (List.range (d.numAnims o)).map fun i => d.entry o i

/-- `Load` (anim_table.cpp:196-260), up to the defining animations. -/
def State.load (load : String → Option A) (s : State A) (d : Describer A) : State A :=
  let p := ({ s with ok := true } : State A).placeLists load d.entries
  { p.1 with indices := p.2 }

/-- `Query` (anim_table.h:103-106); the outer `none` is a failed assertion, the inner `none` is the null pointer. -/
def State.query (s : State A) (o i : ℕ) : Option (Option A) :=
  match s.indices[o]? with
  | none => none
  | some l => match l[i]? with
    | none => none
    | some k => if k = kInvalidAnimIndex then some none else (s.anims[k]?).map some

/-- `QueryByName` (anim_table.h:145-149). -/
def State.queryByName (s : State A) (name : String) : Option (Option A) :=
  match find s.names name with
  | none => some none
  | some k => (s.anims[k]?).map some

/-! ### Specification -/

/-- What an entry can provide. -/
def Entry.content (load : String → Option A) (e : Entry A) : Option A :=
  match e.embedded with
  | some a => some a
  | none => load e.name

/-- The first animation of a name in a list of entries, if any can be loaded. -/
def firstOf (load : String → Option A) (name : String) (es : List (Entry A)) : Option A :=
  (es.filterMap fun e => if e.name = name then e.content load else none).head?

/-! ### Proofs -/

/-- What holds after the entries `done`. -/
structure Inv (load : String → Option A) (done : List (Entry A)) (s : State A) : Prop where
  found : ∀ name k, find s.names name = some k → ∃ a, s.anims[k]? = some a ∧ firstOf load name done = some a
  missing : ∀ name, name ≠ "" → find s.names name = none → firstOf load name done = none
  bound : ∀ name k, find s.names name = some k → k < kInvalidAnimIndex
  log : (s.log.filter fun n => (load n).isSome).Nodup
  logged : ∀ n ∈ s.log, (load n).isSome → (find s.names n).isSome
  empty : find s.names "" = none

theorem find_append (l : List (String × ℕ)) (x : String × ℕ) (name : String) :
    find (l ++ [x]) name = (find l name).or (if x.1 = name then some x.2 else none) := by
  unfold find
  rw [List.find?_append]
  cases h : l.find? (fun x => x.1 = name) with
  | some y => simp
  | none => by_cases hx : x.1 = name <;> simp [hx]

theorem firstOf_append (load : String → Option A) (name : String) (es : List (Entry A)) (e : Entry A) :
    firstOf load name (es ++ [e]) = (firstOf load name es).or (if e.name = name then e.content load else none) := by
  unfold firstOf
  rw [List.filterMap_append, List.head?_append]
  congr 1
  by_cases h : e.name = name
  · cases hc : e.content load <;> simp [h, hc]
  · simp [h]

theorem place_anims (load : String → Option A) (s : State A) (e : Entry A) : ∃ l, (s.place load e).1.anims = s.anims ++ l := by
  unfold State.place
  by_cases hn : e.name = ""
  · rw [if_pos hn]; exact ⟨[], by simp⟩
  · rw [if_neg hn]
    cases find s.names e.name with
    | some k => exact ⟨[], by simp⟩
    | none =>
      simp only
      cases e.embedded with
      | some a => exact ⟨[a], by simp⟩
      | none =>
        cases load e.name with
        | none => exact ⟨[], by simp⟩
        | some a => exact ⟨[a], by simp⟩

theorem placeAll_anims (load : String → Option A) (es : List (Entry A)) : ∀ s : State A, ∃ l, (s.placeAll load es).1.anims = s.anims ++ l := by
  induction es with
  | nil => intro s; exact ⟨[], by simp [State.placeAll]⟩
  | cons e es ih =>
    intro s
    obtain ⟨l1, h1⟩ := place_anims load s e
    obtain ⟨l2, h2⟩ := ih (s.place load e).1
    exact ⟨l1 ++ l2, by simp [State.placeAll, h2, h1]⟩

theorem placeLists_anims (load : String → Option A) (ls : List (List (Entry A))) :
    ∀ s : State A, ∃ l, (s.placeLists load ls).1.anims = s.anims ++ l := by
  induction ls with
  | nil => intro s; exact ⟨[], by simp [State.placeLists]⟩
  | cons e es ih =>
    intro s
    obtain ⟨l1, h1⟩ := placeAll_anims load e s
    obtain ⟨l2, h2⟩ := ih (s.placeAll load e).1
    exact ⟨l1 ++ l2, by simp [State.placeLists, h2, h1]⟩

/-- The meaning of what is stored for an entry. -/
def Means (s : State A) (k : ℕ) (r : Option A) : Prop :=
  match r with
  | none => k = kInvalidAnimIndex
  | some a => k < kInvalidAnimIndex ∧ s.anims[k]? = some a

theorem Means.mono {s s' : State A} {k : ℕ} {r : Option A} (h : Means s k r) (l : List A) (e : s'.anims = s.anims ++ l) : Means s' k r := by
  cases r with
  | none => exact h
  | some a =>
    refine ⟨h.1, ?_⟩
    rw [e, List.getElem?_append_left (List.getElem?_eq_some_iff.mp h.2).1]
    exact h.2

/-- The result of a position: nothing if it has no name, otherwise the first animation of that name up to and including it. -/
def resultOf (load : String → Option A) (done : List (Entry A)) (e : Entry A) : Option A :=
  if e.name = "" then none else firstOf load e.name (done ++ [e])

theorem place_inv (load : String → Option A) (done : List (Entry A)) (s : State A) (e : Entry A) (h : Inv load done s)
    (hcap : (s.place load e).1.anims.length ≤ kInvalidAnimIndex) :
    Inv load (done ++ [e]) (s.place load e).1 ∧ Means (s.place load e).1 (s.place load e).2 (resultOf load done e) ∧
      ((s.place load e).1.ok = true ↔ s.ok = true ∧ (e.name ≠ "" → resultOf load done e ≠ none)) := by
  obtain ⟨i1, i2, i3, i4, i5, i6⟩ := h
  unfold State.place at hcap ⊢
  by_cases hn : e.name = ""
  · rw [if_pos hn]
    refine ⟨⟨?_, ?_, i3, i4, i5, i6⟩, ?_, ?_⟩
    · intro name k hk
      obtain ⟨a, h1, h2⟩ := i1 name k hk
      exact ⟨a, h1, by rw [firstOf_append, h2]; rfl⟩
    · intro name hne hk
      rw [firstOf_append, i2 name hne hk, if_neg (by rw [hn]; exact fun h => hne h.symm)]; rfl
    · unfold resultOf; rw [if_pos hn]; rfl
    · simp [hn]
  · rw [if_neg hn] at hcap ⊢
    cases hf : find s.names e.name with
    | some k =>
      obtain ⟨a, h1, h2⟩ := i1 e.name k hf
      have hres : resultOf load done e = some a := by unfold resultOf; rw [if_neg hn, firstOf_append, h2]; rfl
      refine ⟨⟨?_, ?_, i3, i4, i5, i6⟩, ?_, ?_⟩
      · intro name k hk
        obtain ⟨a, h1, h2⟩ := i1 name k hk
        exact ⟨a, h1, by rw [firstOf_append, h2]; rfl⟩
      · intro name hne hk
        rw [firstOf_append, i2 name hne hk, if_neg (by rintro rfl; rw [hf] at hk; simp at hk)]; rfl
      · rw [hres]; exact ⟨i3 _ _ hf, h1⟩
      · simp [hres]
    | none =>
      have hfirst := i2 e.name hn hf
      have hres : resultOf load done e = e.content load := by
        unfold resultOf; rw [if_neg hn, firstOf_append, hfirst, if_pos rfl]; rfl
      simp only [hf] at hcap ⊢
      have hc : (match e.embedded with | some a => some a | none => load e.name) = e.content load := rfl
      rw [hc] at hcap ⊢
      have hlog : ∀ names : List (String × ℕ), (∀ n, (find s.names n).isSome → (find names n).isSome) → (e.embedded = none → (load e.name).isSome → (find names e.name).isSome) →
          ((if e.embedded.isSome then s else { s with log := s.log ++ [e.name] } : State A).log.filter fun n => (load n).isSome).Nodup ∧
          ∀ n ∈ (if e.embedded.isSome then s else { s with log := s.log ++ [e.name] } : State A).log, (load n).isSome → (find names n).isSome := by
        intro names hsub hnew
        cases he : e.embedded with
        | some a => exact ⟨i4, fun n h1 h2 => hsub n (i5 n h1 h2)⟩
        | none =>
          simp only [Option.isSome_none, Bool.false_eq_true, if_false]
          constructor
          · rw [List.filter_append]
            refine List.Nodup.append i4 ((List.nodup_singleton _).filter _) ?_
            intro n hn1 hn2
            obtain ⟨m1, m2⟩ := List.mem_filter.mp hn1
            obtain ⟨m3, m4⟩ := List.mem_filter.mp hn2
            rw [List.mem_singleton] at m3
            subst m3
            have := i5 _ m1 m2
            rw [hf] at this
            simp at this
          · intro n hn1 hn2
            rcases List.mem_append.mp hn1 with hn1 | hn1
            · exact hsub n (i5 n hn1 hn2)
            · rw [List.mem_singleton] at hn1
              subst hn1
              exact hnew he hn2
      cases hcont : e.content load with
      | none =>
        have hload : load e.name = none ∧ e.embedded = none := by
          unfold Entry.content at hcont
          cases he : e.embedded with
          | some a => rw [he] at hcont; simp at hcont
          | none => rw [he] at hcont; exact ⟨hcont, rfl⟩
        obtain ⟨l1, l2⟩ := hlog s.names (fun _ h => h) (fun _ h => by rw [hload.1] at h; simp at h)
        have hfields : (if e.embedded.isSome then s else { s with log := s.log ++ [e.name] } : State A).names = s.names ∧
            (if e.embedded.isSome then s else { s with log := s.log ++ [e.name] } : State A).anims = s.anims := by
          split_ifs <;> exact ⟨rfl, rfl⟩
        obtain ⟨f1, f2⟩ := hfields
        refine ⟨⟨?_, ?_, ?_, l1, ?_, ?_⟩, ?_, ?_⟩
        · intro name k hk
          simp only [f1] at hk
          obtain ⟨a, h1, h2⟩ := i1 name k hk
          exact ⟨a, by simp only [f2]; exact h1, by rw [firstOf_append, h2]; rfl⟩
        · intro name hne hk
          simp only [f1] at hk
          rw [firstOf_append, i2 name hne hk]
          split_ifs
          · exact hcont
          · rfl
        · intro name k hk
          simp only [f1] at hk
          exact i3 name k hk
        · simp only [f1]; exact l2
        · simp only [f1]; exact i6
        · rw [hres, hcont]; rfl
        · simp [hres, hcont, hn]
      | some a =>
        simp only [hcont] at hcap ⊢
        rw [List.length_append, List.length_singleton] at hcap
        have hlt : s.anims.length < kInvalidAnimIndex := by omega
        have hmod : s.anims.length % 65536 = s.anims.length := Nat.mod_eq_of_lt (by unfold kInvalidAnimIndex at hlt; omega)
        rw [hmod]
        obtain ⟨l1, l2⟩ := hlog (s.names ++ [(e.name, s.anims.length)])
          (fun n h => by rw [find_append]; obtain ⟨k, hk⟩ := Option.isSome_iff_exists.mp h; rw [hk]; rfl)
          (fun _ _ => by rw [find_append, hf, if_pos rfl]; rfl)
        refine ⟨⟨?_, ?_, ?_, l1, l2, ?_⟩, ?_, ?_⟩
        · intro name k hk
          simp only [find_append] at hk
          by_cases hname : e.name = name
          · subst hname
            rw [hf, if_pos rfl] at hk
            obtain rfl := Option.some.inj hk
            refine ⟨a, by simp, ?_⟩
            rw [firstOf_append, hfirst, if_pos rfl, hcont]; rfl
          · rw [if_neg hname, Option.or_none] at hk
            obtain ⟨b, h1, h2⟩ := i1 name k hk
            refine ⟨b, ?_, by rw [firstOf_append, h2]; rfl⟩
            simp only
            rw [List.getElem?_append_left (List.getElem?_eq_some_iff.mp h1).1]; exact h1
        · intro name hne hk
          simp only [find_append] at hk
          by_cases hname : e.name = name
          · subst hname
            rw [if_pos rfl] at hk
            simp at hk
          · rw [if_neg hname, Option.or_none] at hk
            rw [firstOf_append, i2 name hne hk, if_neg hname]; rfl
        · intro name k hk
          simp only [find_append] at hk
          by_cases hname : e.name = name
          · subst hname
            rw [hf, if_pos rfl] at hk
            obtain rfl := Option.some.inj hk
            exact hlt
          · rw [if_neg hname, Option.or_none] at hk
            exact i3 name k hk
        · rw [find_append, i6, if_neg hn]; rfl
        · rw [hres, hcont]
          exact ⟨hlt, by simp⟩
        · rw [hres, hcont]
          simp only [ne_eq, reduceCtorEq, not_false_eq_true, implies_true, and_true]
          split_ifs <;> rfl

theorem placeAll_inv (load : String → Option A) (es : List (Entry A)) : ∀ (done : List (Entry A)) (s : State A), Inv load done s →
    (s.placeAll load es).1.anims.length ≤ kInvalidAnimIndex →
    Inv load (done ++ es) (s.placeAll load es).1 ∧ (s.placeAll load es).2.length = es.length ∧
      (∀ i e, es[i]? = some e → ∃ k, (s.placeAll load es).2[i]? = some k ∧
        Means (s.placeAll load es).1 k (resultOf load (done ++ es.take i) e)) ∧
      ((s.placeAll load es).1.ok = true ↔ s.ok = true ∧ ∀ i e, es[i]? = some e → e.name ≠ "" → resultOf load (done ++ es.take i) e ≠ none) := by
  induction es with
  | nil => intro done s h _; simp [State.placeAll, h]
  | cons e es ih =>
    intro done s h hcap
    simp only [State.placeAll] at hcap ⊢
    obtain ⟨l, hl⟩ := placeAll_anims load es (s.place load e).1
    obtain ⟨p1, p2, p3⟩ := place_inv load done s e h (by rw [hl, List.length_append] at hcap; omega)
    obtain ⟨q1, q2, q3, q4⟩ := ih (done ++ [e]) _ p1 hcap
    have hshift : ∀ i, done ++ [e] ++ es.take i = done ++ (e :: es).take (i + 1) := by intro i; simp
    refine ⟨by simpa using q1, by simp [q2], ?_, ?_⟩
    · intro i e' he
      cases i with
      | zero =>
        obtain rfl := Option.some.inj he
        exact ⟨_, rfl, by simpa using p2.mono l hl⟩
      | succ i =>
        obtain ⟨k, k1, k2⟩ := q3 i e' he
        exact ⟨k, k1, by rw [hshift] at k2; exact k2⟩
    · rw [q4, p3]
      constructor
      · rintro ⟨⟨a, b⟩, c⟩
        refine ⟨a, ?_⟩
        intro i e' he hne
        cases i with
        | zero =>
          obtain rfl := Option.some.inj he
          simpa using b hne
        | succ i => rw [← hshift]; exact c i e' he hne
      · rintro ⟨a, b⟩
        refine ⟨⟨a, fun hne => by simpa using b 0 e rfl hne⟩, ?_⟩
        intro i e' he hne
        rw [hshift]
        exact b (i + 1) e' he hne

theorem placeLists_inv (load : String → Option A) (ls : List (List (Entry A))) : ∀ (done : List (Entry A)) (s : State A), Inv load done s →
    (s.placeLists load ls).1.anims.length ≤ kInvalidAnimIndex →
    Inv load (done ++ ls.flatten) (s.placeLists load ls).1 ∧
      (s.placeLists load ls).2.map List.length = ls.map List.length ∧
      (∀ o i l e, ls[o]? = some l → l[i]? = some e → ∃ r k, (s.placeLists load ls).2[o]? = some r ∧ r[i]? = some k ∧
        Means (s.placeLists load ls).1 k (resultOf load (done ++ (ls.take o).flatten ++ l.take i) e)) ∧
      ((s.placeLists load ls).1.ok = true ↔ s.ok = true ∧ ∀ o i l e, ls[o]? = some l → l[i]? = some e → e.name ≠ "" →
        resultOf load (done ++ (ls.take o).flatten ++ l.take i) e ≠ none) := by
  induction ls with
  | nil => intro done s h _; simp [State.placeLists, h]
  | cons l ls ih =>
    intro done s h hcap
    simp only [State.placeLists] at hcap ⊢
    obtain ⟨x, hx⟩ := placeLists_anims load ls (s.placeAll load l).1
    obtain ⟨p1, p2, p3, p4⟩ := placeAll_inv load l done s h (by rw [hx, List.length_append] at hcap; omega)
    obtain ⟨q1, q2, q3, q4⟩ := ih (done ++ l) _ p1 hcap
    have hshift : ∀ o (t : List (Entry A)), done ++ l ++ (ls.take o).flatten ++ t = done ++ ((l :: ls).take (o + 1)).flatten ++ t := by
      intro o t; simp
    have hzero : ∀ t : List (Entry A), done ++ ((l :: ls).take 0).flatten ++ t = done ++ t := by intro t; simp
    refine ⟨by simpa using q1, by simp [q2, p2], ?_, ?_⟩
    · intro o i l' e hl he
      cases o with
      | zero =>
        obtain rfl := Option.some.inj hl
        obtain ⟨k, k1, k2⟩ := p3 i e he
        exact ⟨_, k, rfl, k1, by rw [hzero]; exact k2.mono x hx⟩
      | succ o =>
        obtain ⟨r, k, k1, k2, k3⟩ := q3 o i l' e hl he
        exact ⟨r, k, k1, k2, by rw [hshift] at k3; exact k3⟩
    · rw [q4, p4]
      constructor
      · rintro ⟨⟨a, b⟩, c⟩
        refine ⟨a, ?_⟩
        intro o i l' e hl he hne
        cases o with
        | zero =>
          obtain rfl := Option.some.inj hl
          rw [hzero]; exact b i e he hne
        | succ o => rw [← hshift]; exact c o i l' e hl he hne
      · rintro ⟨a, b⟩
        refine ⟨⟨a, fun i e he hne => by rw [← hzero]; exact b 0 i l e rfl he hne⟩, ?_⟩
        intro o i l' e hl he hne
        rw [hshift]
        exact b (o + 1) i l' e hl he hne

end Motive.Table
