import Verif.Pipeline.RoundTrip
/-!
# C72: the splines and constants of a bone

Model of `RigAnim::GetSplinesAndConstants` (src/motive/rig_anim.cpp:54-90) and `NumOps` (45-52).  Idealisation: a pointer to a spline is the spline;
`float` is `ℝ`; `none` is the failed assertion of `Anim` (rig_anim.h:43-46).
-/

namespace Motive.Pipeline
open Motive.Matrix4

noncomputable section
open Classical

/-- `OperationDefaultValue` (matrix_op.h:108-110). -/
def defaultValue (t : OpType) : ℝ := if t.isScale || t = .quatW then 1 else 0

/-- `alternate_op` (rig_anim.cpp:61-62). -/
def alternateOp (t : OpType) : OpType := if t.isScale then .scaleUniformly else .invalid

/-- The loop over the operations of the bone (rig_anim.cpp:70-88): the spline and the constant for kind `t`. -/
def queryOp (t : OpType) : List RigOp → Option CSpline × ℝ
  | [] => (none, defaultValue t)
  | o :: os =>
    if o.type ≠ t ∧ o.type ≠ alternateOp t then queryOp t os
    else match o.drive with
      | .const y => (none, y)
      | .spline _ s => (some s, defaultValue t)
      | .empty _ => (none, defaultValue t)

/-- `GetSplinesAndConstants` (rig_anim.cpp:54-90). -/
def getSplinesAndConstants (a : RigAnim) (bone : ℕ) (ts : List OpType) : Option (List (Option CSpline × ℝ)) :=
  (a.anims[bone]?).map fun m => ts.map fun t => queryOp t m.ops

/-- `NumOps` (rig_anim.cpp:45-52). The loop variable is a byte, and so is the number of bones, so it ends. -/
def numOps (a : RigAnim) : ℕ := (a.anims.map fun m => m.ops.length).sum

/-! ### Specification -/

/-- The value of an operation that changes nothing: one for scales and for the real part of a quaternion, zero for the others. -/
def NoChange : OpType → ℝ
  | .scaleX | .scaleY | .scaleZ | .scaleUniformly | .quatW => 1
  | _ => 0

/-- An operation of kind `u` drives kind `t`: it is of that kind, or it scales uniformly and `t` is a scale. -/
def Drives (u t : OpType) : Prop :=
  u = t ∨ (u = .scaleUniformly ∧ t ∈ [OpType.scaleX, .scaleY, .scaleZ, .scaleUniformly])

/-- What the caller gets for kind `t` if operation `o` drives it. -/
def Answer (t : OpType) (o : RigOp) (r : Option CSpline × ℝ) : Prop :=
  (∀ y, o.drive = .const y → r = (none, y)) ∧ (∀ q s, o.drive = .spline q s → r.1 = some s) ∧ (∀ q, o.drive = .empty q → r = (none, NoChange t))

theorem defaultValue_eq (t : OpType) : defaultValue t = NoChange t := by cases t <;> simp [defaultValue, NoChange, OpType.isScale]

theorem matches_iff {u t : OpType} (hu : u ≠ .invalid) : ¬ (u ≠ t ∧ u ≠ alternateOp t) ↔ Drives u t := by
  revert hu
  cases u <;> cases t <;> simp [Drives, alternateOp, OpType.isScale]

theorem queryOp_none {t : OpType} : ∀ {os : List RigOp}, (∀ o ∈ os, o.type ≠ .invalid) → (∀ o ∈ os, ¬ Drives o.type t) →
    queryOp t os = (none, NoChange t)
  | [], _, _ => by rw [queryOp, defaultValue_eq]
  | o :: os, hv, h => by
    rw [queryOp, if_pos]
    · exact queryOp_none (fun x hx => hv x (List.mem_cons_of_mem _ hx)) fun x hx => h x (List.mem_cons_of_mem _ hx)
    · by_contra hn
      exact h o (by simp) ((matches_iff (hv o (by simp))).mp hn)

theorem queryOp_first {t : OpType} {o : RigOp} {post : List RigOp} (hd : Drives o.type t) : ∀ {pre : List RigOp},
    (∀ x ∈ pre ++ o :: post, x.type ≠ .invalid) → (∀ x ∈ pre, ¬ Drives x.type t) → Answer t o (queryOp t (pre ++ o :: post))
  | [], hv, _ => by
    rw [List.nil_append, queryOp, if_neg ((matches_iff (hv o (by simp))).mpr hd)]
    unfold Answer
    cases o.drive with
    | empty q => simp [defaultValue_eq]
    | const y => simp
    | spline q s => simp
  | p :: pre, hv, h => by
    rw [List.cons_append, queryOp, if_pos]
    · exact queryOp_first hd (fun x hx => hv x (List.mem_cons_of_mem _ hx)) fun x hx => h x (List.mem_cons_of_mem _ hx)
    · by_contra hn
      exact h p (by simp) ((matches_iff (hv p (by simp))).mp hn)

/-- C72: for every bone, and every list of kinds, the caller gets for each kind the first operation of the bone that drives it - its constant, or its
spline - and the value that changes nothing if none does. -/
theorem C72_query (a : RigAnim) {bone : ℕ} {m : MatrixAnim} (hb : a.anims[bone]? = some m) (hv : ∀ o ∈ m.ops, o.type ≠ .invalid) (ts : List OpType) :
    ∃ rs, getSplinesAndConstants a bone ts = some rs ∧ List.Forall₂ (fun t r =>
      ((∀ o ∈ m.ops, ¬ Drives o.type t) → r = (none, NoChange t)) ∧
      ∀ pre o post, m.ops = pre ++ o :: post → (∀ x ∈ pre, ¬ Drives x.type t) → Drives o.type t → Answer t o r) ts rs := by
  refine ⟨ts.map fun t => queryOp t m.ops, ?_, ?_⟩
  · unfold getSplinesAndConstants
    rw [hb]
    rfl
  · induction ts with
    | nil => exact .nil
    | cons t ts ih =>
      refine .cons ⟨queryOp_none hv, ?_⟩ ih
      intro pre o post e hp hd
      rw [e] at hv ⊢
      exact queryOp_first hd hv hp

/-- A bone beyond the last fails an assertion. -/
theorem C72_no_bone (a : RigAnim) {bone : ℕ} (h : a.anims.length ≤ bone) (ts : List OpType) : getSplinesAndConstants a bone ts = none := by
  unfold getSplinesAndConstants
  rw [List.getElem?_eq_none h]
  rfl

/-- The values of an imported animation (C71) are those of its channels: every constant channel that is the first to drive its kind is found. -/
theorem C72_imported {bones : List Bone} {a : RigAnim}
    (h : List.Forall₂ (fun (b : Bone) (m : MatrixAnim) => m.sqt = false ∧ List.Forall₂ IsChannel b.channels m.ops) bones a.anims) {i : ℕ} {b : Bone}
    (hb : bones[i]? = some b) (hv : ∀ c ∈ b.channels, c.op ≠ .invalid) {pre post : List Channel} {c : Channel} {n : Node}
    (e : b.channels = pre ++ c :: post) (hn : c.nodes = [n]) (hp : ∀ d ∈ pre, ¬ Drives d.op c.op) :
    getSplinesAndConstants a i [c.op] = some [(none, n.val)] := by
  have hm : ∃ m, a.anims[i]? = some m ∧ List.Forall₂ IsChannel b.channels m.ops := by
    clear hn hp e hv
    generalize a.anims = l at h
    revert i
    induction h with
    | nil => intro i hb; simp at hb
    | @cons x m xs ms hx _ ih =>
      intro i hb
      cases i with
      | zero =>
        simp only [List.getElem?_cons_zero, Option.some.injEq] at hb
        exact ⟨m, by simp, hb ▸ hx.2⟩
      | succ i => exact ih (by simpa using hb)
  obtain ⟨m, hm, hops⟩ := hm
  have hv' : ∀ o ∈ m.ops, o.type ≠ .invalid := by
    intro o ho
    have : ∃ c ∈ b.channels, IsChannel c o := by
      clear e
      generalize b.channels = l at hops
      generalize m.ops = k at hops ho
      induction hops with
      | nil => simp at ho
      | @cons x y xs ys hxy _ ih =>
        rcases List.mem_cons.mp ho with rfl | ho
        · exact ⟨x, by simp, hxy⟩
        · obtain ⟨z, hz, h⟩ := ih ho
          exact ⟨z, by simp [hz], h⟩
    obtain ⟨d, hd, h1⟩ := this
    rw [h1.2.1]
    exact hv d hd
  rw [e] at hops
  have split : ∀ (p q : List Channel) (l : List RigOp), List.Forall₂ IsChannel (p ++ q) l →
      ∃ l1 l2, List.Forall₂ IsChannel p l1 ∧ List.Forall₂ IsChannel q l2 ∧ l = l1 ++ l2 := by
    intro p
    induction p with
    | nil => intro q l h; exact ⟨[], l, .nil, h, rfl⟩
    | cons x p ih =>
      intro q l h
      cases h with
      | @cons _ y _ l h1 h2 =>
        obtain ⟨l1, l2, k1, k2, k3⟩ := ih q l h2
        exact ⟨y :: l1, l2, .cons h1 k1, k2, by rw [k3]; rfl⟩
  obtain ⟨opre, orest, h1, h2, e2⟩ := split _ _ _ hops
  cases h2 with
  | @cons _ o _ opost ho _ =>
    obtain ⟨rs, hrs, hf⟩ := C72_query a hm hv' [c.op]
    rw [hrs]
    cases hf with
    | @cons _ r _ rs hr hnil =>
      cases hnil
      have hpre : ∀ x ∈ opre, ¬ Drives x.type c.op := by
        clear e2 hr hrs e hops
        intro x hx
        induction h1 with
        | nil => simp at hx
        | @cons d y ds ys hxy _ ih =>
          rcases List.mem_cons.mp hx with rfl | hx
          · rw [hxy.2.1]; exact hp d (by simp)
          · exact ih (fun d hd => hp d (by simp [hd])) hx
      have ha := hr.2 opre o opost e2 hpre (Or.inl ho.2.1)
      rcases ho.2.2 with ⟨n', hn', hdr⟩ | ⟨s, s', h2, -⟩
      · rw [hn] at hn'
        obtain rfl := (List.cons.inj hn').1
        rw [ha.1 _ hdr]
      · rw [hn] at h2; simp at h2

/-- An operation of the invalid kind answers every question that is not about a scale: it is the alternate of all those kinds. -/
theorem C72_invalid_answers (t : OpType) (ht : t ∉ [OpType.scaleX, .scaleY, .scaleZ, .scaleUniformly]) (id : ℕ) (y : ℝ) (os : List RigOp) :
    queryOp t (⟨id, .invalid, .const y⟩ :: os) = (none, y) := by
  have : alternateOp t = .invalid := by
    revert ht
    cases t <;> simp [alternateOp, OpType.isScale]
  rw [queryOp, if_neg (by simp [this])]

/-- A bone that scales uniformly by a constant and moves along x on a spline. -/
example : ∃ (a : RigAnim) (m : MatrixAnim), a.anims[0]? = some m ∧ (∀ o ∈ m.ops, o.type ≠ .invalid) ∧
    (getSplinesAndConstants a 0 [.scaleY, .translateX, .rotateZ]).map (fun l => l.map fun r => (r.1.isSome, r.2)) =
      some [(false, 3), (true, 0), (false, 0)] := by
  refine ⟨⟨"", [255], [], [⟨[⟨0, .scaleUniformly, .const 3⟩, ⟨1, .translateX, .spline false (Motive.Splines.Spline.create 0)⟩], false⟩], 0, false⟩, _, rfl,
    by simp, ?_⟩
  simp [getSplinesAndConstants, queryOp, alternateOp, OpType.isScale, defaultValue]

end

end Motive.Pipeline
