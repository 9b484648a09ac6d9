import Verif.Matrix.Sqt
/-!
# C44 (quaternion sign alignment) and the pose of an SQT motivator (C65)
-/

namespace Motive.Matrix4
open Motive.Targets Motive.Curve

noncomputable section
variable {D : Driver}

/-! ### Specification -/

/-- Where an operation to come starts: at its value, at the first waypoint of its target, at the beginning of its spline, or at the default of
its type. -/
inductive Starts (t : OpType) : Union D → ℝ → Prop
  | default : Starts t .empty t.default
  | value (v : ℝ) : Starts t (.initial v) v
  | waypoints (n : MNode ℝ) (rest : List (MNode ℝ)) : Starts t (.target ⟨n :: rest⟩) n.value
  | spline (s : D.S) : Starts t (.spline s) (D.splineStart s)

/-- The types and start values of operations to come. -/
def StartsAt (new : List (OpInit D)) (l : List (OpType × ℝ)) : Prop :=
  List.Forall₂ (fun n p => p.1 = n.type ∧ Starts n.type n.union p.2) new l

/-- The quaternion that operations describe: each component is that of the last operation for it, or that of the identity. -/
def Describes (l : List (OpType × ℝ)) (q : Quat) : Prop :=
  Last (· = .quatW) l 1 q.w ∧ Last (· = .quatX) l 0 q.x ∧ Last (· = .quatY) l 0 q.y ∧ Last (· = .quatZ) l 0 q.z

/-- The operations have all the components of a quaternion. -/
def HasQuat (l : List (OpType × ℝ)) : Prop := ∀ t : OpType, t.isQuat → t ∈ l.map Prod.fst

/-- A motivator takes the value and velocity of `SetTarget(Current1f(v, d))`. -/
def Snaps (D : Driver) : Prop :=
  ∀ m v d, D.value (D.setTarget m ⟨[⟨v, d, 0, .closest⟩]⟩) = v ∧ D.velocity (D.setTarget m ⟨[⟨v, d, 0, .closest⟩]⟩) = d

/-! ### Algebra -/

theorem Quat.dot_neg (p q : Quat) : p.neg.dot q = -p.dot q := by unfold Quat.neg Quat.dot; ring
theorem Quat.dot_neg_right (p q : Quat) : p.dot q.neg = -p.dot q := by unfold Quat.neg Quat.dot; ring
theorem Quat.dot_smul (a : ℝ) (p q : Quat) : (p.smul a).dot q = a * p.dot q := by unfold Quat.smul Quat.dot; ring
theorem Quat.dot_smul_right (a : ℝ) (p q : Quat) : p.dot (q.smul a) = a * p.dot q := by unfold Quat.smul Quat.dot; ring
theorem Quat.dot_comm (p q : Quat) : p.dot q = q.dot p := by unfold Quat.dot; ring
theorem Quat.neg_neg (q : Quat) : q.neg.neg = q := by simp [Quat.neg]

/-- `q` and `-q` are the same rotation. -/
theorem C44_neg_same_rotation (q : Quat) : q.neg.toMatrix = q.toMatrix := by
  simp [Quat.toMatrix, Quat.neg]

theorem normalize_neg (q : Quat) : q.neg.normalize = q.normalize.map Quat.neg := by
  have : q.neg.dot q.neg = q.dot q := by rw [Quat.dot_neg, Quat.dot_neg_right, _root_.neg_neg]
  unfold Quat.normalize
  rw [this]
  split_ifs
  · rfl
  · simp [Quat.neg, Quat.smul]

/-! ### The start of the new animation -/

theorem startValue_eq {n : OpInit D} {v : ℝ} (h : Starts n.type n.union v) : n.startValue = some v := by
  unfold OpInit.startValue
  generalize n.type = t at h
  generalize n.union = u at h
  cases h <;> rfl

theorem nextQuat_eq (q : Quat) (new : List (OpInit D)) (l : List (OpType × ℝ)) (h : StartsAt new l) :
    nextQuat q new = some ⟨lastOf (· = .quatW) q.w l, lastOf (· = .quatX) q.x l, lastOf (· = .quatY) q.y l, lastOf (· = .quatZ) q.z l⟩ := by
  induction h generalizing q with
  | nil => rfl
  | @cons n p ns l h1 _ ih =>
    obtain ⟨t, v⟩ := p
    obtain ⟨ht, hs⟩ := h1
    have hv := startValue_eq hs
    simp only at ht hv
    cases t <;> simp [nextQuat, nextStep, ← ht, hv, ih, lastOf]

/-! ### Negation of operations -/

theorem negate_type (o : Op D) : o.negate.type = o.type := by
  unfold Op.negate; split_ifs
  · split <;> rfl
  · rfl

theorem negate_id (o : Op D) : o.negate.id = o.id := by
  unfold Op.negate; split_ifs
  · split <;> rfl
  · rfl

theorem negate_value (hD : Snaps D) (o : Op D) : o.negate.value = if o.type.isQuat then -o.value else o.value := by
  unfold Op.negate
  split_ifs with h
  · cases hm : o.motivator with
    | none => simp [Op.value, hm]
    | some m => simp only [Op.value]; exact (hD m _ _).1
  · rfl

theorem negate_velocity (hD : Snaps D) (o : Op D) : o.negate.velocity = if o.type.isQuat then -o.velocity else o.velocity := by
  unfold Op.negate
  split_ifs with h
  · cases hm : o.motivator with
    | none => simp [Op.velocity, hm]
    | some m => simp only [Op.velocity]; exact (hD m _ _).2
  · rfl

/-- The types and values after negation. -/
def negated (l : List (OpType × ℝ)) : List (OpType × ℝ) := l.map fun o => (o.1, if o.1.isQuat then -o.2 else o.2)

theorem readOps_negate (hD : Snaps D) (ops : List (Op D)) : readOps (ops.map Op.negate) = negated (readOps ops) := by
  simp [readOps, negated, negate_type, negate_value hD]

theorem lastOf_negated_other (P : OpType → Bool) (hP : ∀ t, P t → t.isQuat = false) (d : ℝ) (l : List (OpType × ℝ)) :
    lastOf P d (negated l) = lastOf P d l := by
  induction l generalizing d with
  | nil => rfl
  | cons o l ih =>
    simp only [negated, List.map_cons, lastOf] at ih ⊢
    by_cases h : P o.1
    · simp only [h, if_true, hP _ h, ih]; rfl
    · simp only [h, ih]; rfl

theorem lastOf_negated (P : OpType → Bool) (hP : ∀ t, P t → t.isQuat) (d : ℝ) (l : List (OpType × ℝ)) (h : ∃ o ∈ l, P o.1) :
    lastOf P d (negated l) = -lastOf P d l := by
  have gen : ∀ (l : List (OpType × ℝ)) (d e : ℝ), ((∃ o ∈ l, P o.1) ∨ e = -d) → lastOf P e (negated l) = -lastOf P d l := by
    intro l
    induction l with
    | nil => intro d e h; simpa [lastOf, negated] using h
    | cons o l ih =>
      intro d e h
      simp only [negated, List.map_cons, lastOf] at ih ⊢
      apply ih
      by_cases hp : P o.1
      · right; simp [hp, hP _ hp]
      · rcases h with ⟨x, hx, hxp⟩ | h
        · rcases List.mem_cons.mp hx with rfl | hx
          · exact absurd hxp hp
          · exact Or.inl ⟨x, hx, hxp⟩
        · right; simp [hp, h]
  exact gen l d d (Or.inl h)

theorem updateSqt_supported (ops : List (OpType × ℝ)) (r : SqtResult) (h : updateSqt ops = some r) : ∀ o ∈ ops, SqtSupported o.1 := by
  rw [updateSqt] at h
  have : ∀ (l : List (OpType × ℝ)) (p q : Parts), p.gather l = some q → ∀ o ∈ l, SqtSupported o.1 := by
    intro l
    induction l with
    | nil => intro _ _ _ o ho; simp at ho
    | cons a l ih =>
      intro p q hg o ho
      rw [Parts.gather] at hg
      obtain ⟨p', hp, hg⟩ := Option.bind_eq_some_iff.mp hg
      rcases List.mem_cons.mp ho with rfl | ho
      · revert hp
        cases o.1 <;> simp [Parts.assign, SqtSupported, OpType.isTranslate, OpType.isScale, OpType.isQuat]
      · exact ih p' q hg o ho
  obtain ⟨p, hp, _⟩ := Option.bind_eq_some_iff.mp h
  exact this ops _ p hp

/-- The quaternion of operations. -/
def rawQuat (l : List (OpType × ℝ)) : Quat :=
  ⟨lastOf (· = .quatW) 1 l, lastOf (· = .quatX) 0 l, lastOf (· = .quatY) 0 l, lastOf (· = .quatZ) 0 l⟩

theorem describes_iff (l : List (OpType × ℝ)) (q : Quat) : Describes l q ↔ q = rawQuat l := by
  constructor
  · rintro ⟨h1, h2, h3, h4⟩
    ext
    · exact last_unique h1
    · exact last_unique h2
    · exact last_unique h3
    · exact last_unique h4
  · rintro rfl
    exact ⟨last_lastOf _ _ _, last_lastOf _ _ _, last_lastOf _ _ _, last_lastOf _ _ _⟩

theorem updateSqt_eq (l : List (OpType × ℝ)) (h : ∀ o ∈ l, SqtSupported o.1) :
    updateSqt l = (rawQuat l).normalize.map fun r =>
      let s := ![lastOf (scaleKind .scaleX) 1 l, lastOf (scaleKind .scaleY) 1 l, lastOf (scaleKind .scaleZ) 1 l]
      ⟨transform ![lastOf (· = .translateX) 0 l, lastOf (· = .translateY) 0 l, lastOf (· = .translateZ) 0 l] r.toMatrix s, r, s⟩ := by
  rw [updateSqt, gather_eq _ _ h]
  rfl

theorem negated_supported {l : List (OpType × ℝ)} (h : ∀ o ∈ l, SqtSupported o.1) : ∀ o ∈ negated l, SqtSupported o.1 := by
  intro o ho
  obtain ⟨x, hx, rfl⟩ := List.mem_map.mp ho
  exact h x hx

theorem rawQuat_negated {l : List (OpType × ℝ)} (h : HasQuat l) : rawQuat (negated l) = (rawQuat l).neg := by
  have ex : ∀ t : OpType, t.isQuat → ∃ o ∈ l, (o.1 = t) := by
    intro t ht
    obtain ⟨o, ho, e⟩ := List.mem_map.mp (h t ht)
    exact ⟨o, ho, e⟩
  unfold rawQuat Quat.neg
  rw [lastOf_negated, lastOf_negated, lastOf_negated, lastOf_negated]
  all_goals first
    | (intro t ht; simp only [decide_eq_true_eq] at ht; subst ht; rfl)
    | simpa using ex _ rfl

theorem updateSqt_negated {l : List (OpType × ℝ)} (h : ∀ o ∈ l, SqtSupported o.1) (hq : HasQuat l) :
    updateSqt (negated l) = (updateSqt l).map fun r => { r with rotation := r.rotation.neg } := by
  have hs : ∀ t : OpType, (t = .scaleX ∨ t = .scaleY ∨ t = .scaleZ) → ∀ u, scaleKind t u → u.isQuat = false := by
    rintro t ht u hu
    simp only [scaleKind, Bool.or_eq_true, decide_eq_true_eq] at hu
    rcases hu with rfl | rfl
    · rcases ht with rfl | rfl | rfl <;> rfl
    · rfl
  have ht : ∀ t : OpType, t.isTranslate → ∀ u, decide (u = t) → u.isQuat = false := by
    intro t ht u hu
    simp only [decide_eq_true_eq] at hu
    subst hu
    revert ht
    cases u <;> simp [OpType.isTranslate, OpType.isQuat]
  rw [updateSqt_eq _ (negated_supported h), updateSqt_eq _ h, rawQuat_negated hq, normalize_neg, Option.map_map, Option.map_map]
  rw [lastOf_negated_other _ (hs _ (by simp)), lastOf_negated_other _ (hs _ (by simp)), lastOf_negated_other _ (hs _ (by simp)),
    lastOf_negated_other _ (ht _ rfl), lastOf_negated_other _ (ht _ rfl), lastOf_negated_other _ (ht _ rfl)]
  congr 1
  funext r
  simp [C44_neg_same_rotation]

/-! ### C44 -/

/-- C44: suppose that the operations have all four components of the quaternion, the result `r` is up to date, and the new operations start
at a quaternion `q` that is not zero. Then blending first negates the quaternion components exactly if the dot product of the rotation and
`q` is negative. After that the dot product is not negative, the other operations are as they were, and so are the matrix and the scale. -/
theorem C44_align (hD : Snaps D) (ops : List (Op D)) (new : List (OpInit D)) (r : SqtResult) (starts : List (OpType × ℝ)) (q : Quat)
    (hr : updateSqt (readOps ops) = some r) (hq : HasQuat (readOps ops)) (hs : StartsAt new starts) (hn : Describes starts q)
    (h0 : q ≠ ⟨0, 0, 0, 0⟩) :
    ∃ ops' r', alignOps r.rotation new ops = some ops' ∧ updateSqt (readOps ops') = some r' ∧
      r'.rotation = (if r.rotation.dot q < 0 then r.rotation.neg else r.rotation) ∧ 0 ≤ r'.rotation.dot q ∧
      r'.matrix = r.matrix ∧ r'.scale = r.scale ∧
      List.Forall₂ (fun o o' => o'.id = o.id ∧ o'.type = o.type ∧
        (if o.type.isQuat ∧ r.rotation.dot q < 0 then o'.value = -o.value ∧ o'.velocity = -o.velocity else o' = o)) ops ops' := by
  have hn' := (describes_iff _ _).mp hn
  have hq0 : q.dot q ≠ 0 := by
    intro h
    apply h0
    unfold Quat.dot at h
    have e1 := mul_self_nonneg q.w
    have e2 := mul_self_nonneg q.x
    have e3 := mul_self_nonneg q.y
    have e4 := mul_self_nonneg q.z
    ext <;> exact mul_self_eq_zero.mp (by linarith)
  have hpos : 0 < q.dot q := lt_of_le_of_ne (Quat.dot_self_nonneg q) hq0.symm
  have hk : 0 < 1 / Real.sqrt (q.dot q) := by positivity
  have hsign : r.rotation.dot (q.smul (1 / Real.sqrt (q.dot q))) < 0 ↔ r.rotation.dot q < 0 := by
    rw [Quat.dot_smul_right]
    constructor
    · intro h; by_contra hc
      have := mul_nonneg hk.le (not_lt.mp hc); linarith
    · intro h; exact mul_neg_of_pos_of_neg hk h
  have hal : alignOps r.rotation new ops = some (if r.rotation.dot q < 0 then ops.map Op.negate else ops) := by
    rw [alignOps, nextQuat_eq _ _ _ hs]
    have : (⟨lastOf (· = .quatW) Quat.one.w starts, lastOf (· = .quatX) Quat.one.x starts, lastOf (· = .quatY) Quat.one.y starts,
        lastOf (· = .quatZ) Quat.one.z starts⟩ : Quat) = q := by rw [hn']; rfl
    rw [this, Option.bind_some, Quat.normalize, if_neg hq0, Option.map_some]
    simp only [hsign]
  by_cases hc : r.rotation.dot q < 0
  · refine ⟨ops.map Op.negate, { r with rotation := r.rotation.neg }, by rw [hal, if_pos hc], ?_, by rw [if_pos hc], ?_, rfl, rfl, ?_⟩
    · rw [readOps_negate hD, updateSqt_negated (updateSqt_supported _ _ hr) hq, hr]
      rfl
    · rw [Quat.dot_neg]; linarith
    · rw [List.forall₂_map_right_iff, List.forall₂_same]
      intro o _
      refine ⟨negate_id o, negate_type o, ?_⟩
      by_cases ho : o.type.isQuat
      · rw [if_pos ⟨ho, hc⟩, negate_value hD, negate_velocity hD, if_pos ho, if_pos ho]
        exact ⟨rfl, rfl⟩
      · rw [if_neg (fun h => ho h.1), Op.negate, if_neg ho]
  · refine ⟨ops, r, by rw [hal, if_neg hc], hr, by rw [if_neg hc], not_lt.mp hc, rfl, rfl, ?_⟩
    rw [List.forall₂_same]
    intro o _
    exact ⟨rfl, rfl, by rw [if_neg (fun h => hc h.2)]⟩

/-- The quaternion with components on Hermite curves without velocity at either end, at time `t` of `w`. -/
def blendAt (p q : Quat) (w t : ℝ) : Quat :=
  ⟨(Cubic.init ⟨p.w, 0, q.w, 0, w⟩).eval t, (Cubic.init ⟨p.x, 0, q.x, 0, w⟩).eval t,
   (Cubic.init ⟨p.y, 0, q.y, 0, w⟩).eval t, (Cubic.init ⟨p.z, 0, q.z, 0, w⟩).eval t⟩

theorem segment (p q : Quat) (hp : 0 < p.dot p) (hq : 0 < q.dot q) (h : 0 ≤ p.dot q) (s : ℝ) (h0 : 0 ≤ s) (h1 : s ≤ 1) :
    let m := (p.smul (1 - s)).add (q.smul s)
    0 ≤ m.dot p ∧ 0 ≤ m.dot q ∧ 0 < m.dot m := by
  have e1 : ((p.smul (1 - s)).add (q.smul s)).dot p = (1 - s) * p.dot p + s * p.dot q := by
    unfold Quat.add Quat.smul Quat.dot; ring
  have e2 : ((p.smul (1 - s)).add (q.smul s)).dot q = (1 - s) * p.dot q + s * q.dot q := by
    unfold Quat.add Quat.smul Quat.dot; ring
  have e3 : ((p.smul (1 - s)).add (q.smul s)).dot ((p.smul (1 - s)).add (q.smul s)) =
      (1 - s) * (1 - s) * p.dot p + 2 * (s * (1 - s)) * p.dot q + s * s * q.dot q := by
    unfold Quat.add Quat.smul Quat.dot; ring
  have hs : 0 ≤ 1 - s := by linarith
  refine ⟨?_, ?_, ?_⟩
  · rw [e1]; positivity
  · rw [e2]; positivity
  · rw [e3]
    rcases h0.lt_or_eq with h0 | rfl
    · have : 0 < s * s * q.dot q := by positivity
      have : 0 ≤ (1 - s) * (1 - s) * p.dot p + 2 * (s * (1 - s)) * p.dot q := by positivity
      linarith
    · simpa using hp

/-- From aligned quaternions without velocity, the components blend along a path on which the dot product with both ends is never negative,
and which never meets zero, so that the rotation is always defined. -/
theorem C44_stays_in_hemisphere (p q : Quat) (hp : p ≠ ⟨0, 0, 0, 0⟩) (hq : q ≠ ⟨0, 0, 0, 0⟩) (h : 0 ≤ p.dot q) (w t : ℝ)
    (hw : 0 < w) (ht0 : 0 ≤ t) (htw : t ≤ w) :
    0 ≤ (blendAt p q w t).dot p ∧ 0 ≤ (blendAt p q w t).dot q ∧ ∃ r, (blendAt p q w t).normalize = some r := by
  have pos : ∀ q : Quat, q ≠ ⟨0, 0, 0, 0⟩ → 0 < q.dot q := by
    intro q h0
    refine lt_of_le_of_ne (Quat.dot_self_nonneg q) (fun h => h0 ?_)
    unfold Quat.dot at h
    have e1 := mul_self_nonneg q.w
    have e2 := mul_self_nonneg q.x
    have e3 := mul_self_nonneg q.y
    have e4 := mul_self_nonneg q.z
    ext <;> exact mul_self_eq_zero.mp (by linarith)
  have hx0 : 0 ≤ t / w := by positivity
  have hx1 : t / w ≤ 1 := (div_le_one hw).mpr htw
  have hc : ∀ a b : ℝ, (Cubic.init ⟨a, 0, b, 0, w⟩).eval t =
      (1 - (t / w) ^ 2 * (3 - 2 * (t / w))) * a + (t / w) ^ 2 * (3 - 2 * (t / w)) * b := by
    intro a b
    simp only [Cubic.init, Cubic.eval]
    simp only [if_pos hw]
    field_simp
    ring
  have hb : blendAt p q w t = (p.smul (1 - (t / w) ^ 2 * (3 - 2 * (t / w)))).add (q.smul ((t / w) ^ 2 * (3 - 2 * (t / w)))) := by
    simp only [blendAt, hc, Quat.add, Quat.smul]
  rw [hb]
  obtain ⟨h1, h2, h3⟩ := segment p q (pos p hp) (pos q hq) h ((t / w) ^ 2 * (3 - 2 * (t / w)))
    (mul_nonneg (sq_nonneg _) (by linarith)) (by nlinarith [mul_nonneg (sq_nonneg (1 - t / w)) (by linarith : 0 ≤ 1 + 2 * (t / w))])
  refine ⟨h1, h2, ?_⟩
  rw [Quat.normalize, if_neg h3.ne']
  exact ⟨_, rfl⟩

/-- Without the alignment a path can meet zero: half way from a quaternion to its negative. -/
theorem C44_needs_alignment : (blendAt .one Quat.one.neg 2 1).normalize = none := by
  rw [Quat.normalize, if_pos]
  simp [blendAt, Cubic.init, Cubic.eval, Quat.one, Quat.neg, Quat.dot]
  norm_num

/-- An operation that is missing because it is at its default is not negated: the rotation and the new start stay in opposite hemispheres. -/
theorem C44_missing_component_not_aligned : ∃ ops', alignOps Quat.one ([⟨none, 1, .quatW, .initial (-1)⟩] : List (OpInit stepDriver)) [] =
    some ops' ∧ (rawQuat (readOps ops')).dot ⟨-1, 0, 0, 0⟩ < 0 := by
  refine ⟨[], ?_, by simp [readOps, rawQuat, lastOf, Quat.dot]⟩
  simp [alignOps, nextQuat, nextStep, OpInit.startValue, Quat.normalize, Quat.one, Quat.dot]

/-- With a velocity at the start, the path can leave the hemisphere even though the quaternions are aligned. -/
theorem C44_velocity_leaves_hemisphere :
    (⟨(Cubic.init ⟨1, -20, 1, 0, (1 : ℝ)⟩).eval (1 / 3), 0, 0, 0⟩ : Quat).dot .one < 0 := by
  simp [Cubic.init, Cubic.eval, Quat.one, Quat.dot]
  norm_num

/-- A motivator that jumps to its targets and keeps their velocity. -/
def snapDriver : Driver where
  M := ℝ × ℝ
  I := Unit
  S := Unit
  create _ := (0, 0)
  value m := m.1
  velocity m := m.2
  setTarget m t := match t.nodes with
    | [] => m
    | n :: _ => (n.value, n.velocity)
  setSpline m _ _ := m
  setRate m _ := m
  setRepeating m _ := m
  targetTime _ := 0
  splineStart _ := 0
  advance m _ := m

/-- A quarter turn about z given as `(-1, 0, 0, -1)`, and an animation that starts at a unit quaternion near the identity. -/
example : ∃ ops' r', alignOps (D := snapDriver) ⟨-1 / Real.sqrt 2, 0, 0, -1 / Real.sqrt 2⟩ [⟨none, 1, .quatW, .initial 1⟩]
      [⟨1, .quatW, some (-1, 3), 0⟩, ⟨2, .quatX, none, 0⟩, ⟨3, .quatY, none, 0⟩, ⟨4, .quatZ, none, -1⟩] = some ops' ∧
    updateSqt (readOps ops') = some r' ∧ 0 ≤ r'.rotation.dot ⟨1, 0, 0, 0⟩ ∧ r'.rotation.w = 1 / Real.sqrt 2 := by
  have hD : Snaps snapDriver := fun m v d => ⟨rfl, rfl⟩
  obtain ⟨r, hr, hrot⟩ : ∃ r, updateSqt (readOps ([⟨1, .quatW, some (-1, 3), 0⟩, ⟨2, .quatX, none, 0⟩, ⟨3, .quatY, none, 0⟩,
      ⟨4, .quatZ, none, -1⟩] : List (Op snapDriver))) = some r ∧ r.rotation = ⟨-1 / Real.sqrt 2, 0, 0, -1 / Real.sqrt 2⟩ := by
    rw [updateSqt_eq _ (by simp [readOps, SqtSupported, OpType.isQuat])]
    have hraw : rawQuat (readOps ([⟨1, .quatW, some (-1, 3), 0⟩, ⟨2, .quatX, none, 0⟩, ⟨3, .quatY, none, 0⟩,
        ⟨4, .quatZ, none, -1⟩] : List (Op snapDriver))) = ⟨-1, 0, 0, -1⟩ := by
      have hv : Op.value (⟨1, .quatW, some (-1, 3), 0⟩ : Op snapDriver) = -1 := rfl
      simp only [readOps, rawQuat, List.map_cons, List.map_nil, hv]
      simp [Op.value, lastOf]
    rw [hraw, Quat.normalize, if_neg (by simp [Quat.dot])]
    refine ⟨_, rfl, ?_⟩
    have : Quat.dot ⟨-1, 0, 0, -1⟩ ⟨-1, 0, 0, -1⟩ = 2 := by simp [Quat.dot]; norm_num
    simp only [this, Quat.smul]
    simp
    ring
  rw [← hrot]
  obtain ⟨ops', r', h1, h2, h3, h4, -⟩ := C44_align hD _ [⟨none, 1, .quatW, .initial 1⟩] _ [(.quatW, 1)] ⟨1, 0, 0, 0⟩ hr
    (by intro t ht; revert ht; cases t <;> simp [OpType.isQuat, readOps]) (.cons ⟨rfl, .value _⟩ .nil)
    (by rw [describes_iff]; simp [rawQuat, lastOf]) (by simp)
  refine ⟨ops', r', h1, h2, h4, ?_⟩
  rw [h3, if_pos]
  · rw [hrot]; simp [Quat.neg]; ring
  · rw [hrot]; simp only [Quat.dot]
    have : 0 < 1 / Real.sqrt 2 := by positivity
    rw [neg_div]; linarith

/-! ### The pose of an SQT motivator -/

/-- The two types set the same component. -/
def Clash (t u : OpType) : Prop :=
  t = u ∨ (t = .scaleUniformly ∧ u.isScale) ∨ (t.isScale ∧ u = .scaleUniformly)

/-- The kinds of operations that set one component, and its default. -/
def Component (P : OpType → Bool) (d : ℝ) : Prop :=
  (∀ t u, P t → P u → Clash t u) ∧ ∀ t, P t → t.default = d

theorem component_eq (t : OpType) (d : ℝ) (h : t.default = d) : Component (fun u => u = t) d := by
  constructor
  · intro a b ha hb
    simp only [decide_eq_true_eq] at ha hb
    exact Or.inl (ha.trans hb.symm)
  · intro a ha
    simp only [decide_eq_true_eq] at ha
    rw [ha, h]

theorem component_scale (t : OpType) (h : t.isScale) : Component (scaleKind t) 1 := by
  constructor
  · intro a b ha hb
    simp only [scaleKind, Bool.or_eq_true, decide_eq_true_eq] at ha hb
    rcases ha with rfl | rfl <;> rcases hb with rfl | rfl
    · exact Or.inl rfl
    · exact Or.inr (Or.inr ⟨h, rfl⟩)
    · exact Or.inr (Or.inl ⟨rfl, h⟩)
    · exact Or.inl rfl
  · intro a ha
    simp only [scaleKind, Bool.or_eq_true, decide_eq_true_eq] at ha
    rcases ha with rfl | rfl
    · simp [OpType.default, h]
    · simp [OpType.default, OpType.isScale]

/-- The types and values of operations at a time after now. -/
def readAfter (ops : List (Op D)) (t : ℤ) : List (OpType × ℝ) := ops.map fun o => (o.type, (o.advance t).value)

theorem Merged.component {pb : Playback} (hpb : 0 ≤ pb.blendX) (hD : Obedient D 0) (c : OpInit D → ℝ)
    {os : List (Op D)} {ns : List (OpInit D)} {l : List (Op D)} (h : Merged pb os ns l) (hc : ∀ n ∈ ns, n.union = .initial (c n))
    (ht : ∀ o ∈ os, ∀ n ∈ ns, o.id = n.id → o.type = n.type) (ho : Ascending (os.map (·.id))) (hn : Ascending (ns.map (·.id)))
    {P : OpType → Bool} {d : ℝ} (hP : Component P d) :
    ((∀ o ∈ os, (∀ n ∈ ns, n.id ≠ o.id) → P o.type = false) →
      ∀ e, lastOf P e (readAfter l ⌊pb.blendX⌋) = lastOf P e (ns.map fun n => (n.type, c n))) ∧
    ((∀ n ∈ ns, P n.type = false) → lastOf P d (readAfter l ⌊pb.blendX⌋) = d) := by
  obtain ⟨set1, set2⟩ := C43_settles hD pb hpb
  have zero : ∀ a b : ℝ, |a - b| ≤ 0 → a = b := fun a b h => sub_eq_zero.mp (abs_eq_zero.mp (le_antisymm h (abs_nonneg _)))
  induction h with
  | nil => exact ⟨fun _ _ => rfl, fun _ => rfl⟩
  | @both o n o1 os ns l h1 h2 h3 ih =>
    rw [Ascending, List.map_cons, List.pairwise_cons] at ho hn
    obtain ⟨i1, i2⟩ := ih (fun x hx => hc x (by simp [hx])) (fun x hx y hy => ht x (by simp [hx]) y (by simp [hy])) ho.2 hn.2
    have hv := zero _ _ (set2 _ _ _ _ (hc n (by simp)) h2)
    have htype : o1.type = n.type := h2.2.1.trans (ht o (by simp) n (by simp) h1)
    constructor
    · intro hH e
      simp only [readAfter, List.map_cons, lastOf, hv, htype]
      refine i1 (fun x hx hx' => hH x (by simp [hx]) ?_) _
      intro y hy
      rcases List.mem_cons.mp hy with rfl | hy
      · have := ho.1 x.id (List.mem_map_of_mem hx); omega
      · exact hx' y hy
    · intro hH
      simp only [readAfter, List.map_cons, lastOf, htype, hH n (by simp)]
      exact i2 (fun x hx => hH x (by simp [hx]))
  | @old o o1 os ns l h1 h2 h3 ih =>
    have hn' := head_lt hn h1
    rw [Ascending, List.map_cons, List.pairwise_cons] at ho
    obtain ⟨i1, i2⟩ := ih hc (fun x hx y hy => ht x (by simp [hx]) y hy) ho.2 hn
    have hv := zero _ _ (set1 _ _ h2)
    have htype : o1.type = o.type := h2.2.1
    constructor
    · intro hH e
      have : P o.type = false := hH o (by simp) (fun y hy => by have := hn' y.id (List.mem_map_of_mem hy); omega)
      simp only [readAfter, List.map_cons, lastOf, htype, this]
      exact i1 (fun x hx hx' => hH x (by simp [hx]) hx') _
    · intro hH
      simp only [readAfter, List.map_cons, lastOf, hv, htype]
      by_cases hp : P o.type
      · rw [if_pos hp, hP.2 _ hp]; exact i2 hH
      · rw [if_neg hp]; exact i2 hH
  | @new n o o1 os ns l h1 h2 h3 h4 ih =>
    have ho2 := head_lt ho h1
    rw [Ascending, List.map_cons, List.pairwise_cons] at hn
    obtain ⟨i1, i2⟩ := ih (fun x hx => hc x (by simp [hx])) (fun x hx y hy => ht x hx y (by simp [hy])) ho hn.2
    have hv := zero _ _ (set2 _ _ _ _ (hc n (by simp)) h3)
    have htype : o1.type = n.type := h3.2.1.trans h2.2.1
    constructor
    · intro hH e
      simp only [readAfter, List.map_cons, lastOf, hv, htype]
      refine i1 (fun x hx hx' => hH x hx ?_) _
      intro y hy
      rcases List.mem_cons.mp hy with rfl | hy
      · have := ho2 x.id (List.mem_map_of_mem hx); omega
      · exact hx' y hy
    · intro hH
      simp only [readAfter, List.map_cons, lastOf, htype, hH n (by simp)]
      exact i2 (fun x hx => hH x (by simp [hx]))

theorem nextQuat_congr {new : List (OpInit D)} (c : OpInit D → ℝ) (hc : ∀ n ∈ new, n.union = .initial (c n)) :
    StartsAt new (new.map fun n => (n.type, c n)) := by
  unfold StartsAt
  rw [List.forall₂_map_right_iff, List.forall₂_same]
  intro n hn
  exact ⟨rfl, by simp only [hc n hn]; exact .value _⟩

/-- When the blend of an SQT motivator to a pose is over, its result is that of the new operations alone, whatever it did before, if no
operation that is not in the new list sets a component that the new list sets. -/
theorem C65_pose (hD : Obedient D 0) (rotation : Quat) (ops : List (Op D)) (new : List (OpInit D)) (c : OpInit D → ℝ) (pb : Playback)
    (q : Quat) (hpb : 0 ≤ pb.blendX) (ho : Ascending (ops.map (·.id))) (hn : Ascending (new.map (·.id)))
    (hm : ∀ n ∈ new, Made n) (hc : ∀ n ∈ new, n.union = .initial (c n)) (ht : ∀ o ∈ ops, ∀ n ∈ new, o.id = n.id → o.type = n.type)
    (hclash : ∀ o ∈ ops, (∀ n ∈ new, n.id ≠ o.id) → ∀ n ∈ new, ¬ Clash o.type n.type)
    (hso : ∀ o ∈ ops, SqtSupported o.type) (hsn : ∀ n ∈ new, SqtSupported n.type)
    (hq : Describes (new.map fun n => (n.type, c n)) q) (h0 : q ≠ ⟨0, 0, 0, 0⟩) :
    ∃ l r, blendToOpsSqt rotation new pb ops = some l ∧ updateSqt (readAfter l ⌊pb.blendX⌋) = some r ∧
      updateSqt (new.map fun n => (n.type, c n)) = some r := by
  have hq' := (describes_iff _ _).mp hq
  have hq0 : q.dot q ≠ 0 := by
    intro h
    apply h0
    unfold Quat.dot at h
    have e1 := mul_self_nonneg q.w
    have e2 := mul_self_nonneg q.x
    have e3 := mul_self_nonneg q.y
    have e4 := mul_self_nonneg q.z
    ext <;> exact mul_self_eq_zero.mp (by linarith)
  obtain ⟨ops', ha, hid, htype⟩ : ∃ ops', alignOps rotation new ops = some ops' ∧ ops'.map (·.id) = ops.map (·.id) ∧
      ∀ o' ∈ ops', ∃ o ∈ ops, o'.id = o.id ∧ o'.type = o.type := by
    rw [alignOps, nextQuat_eq _ _ _ (nextQuat_congr c hc)]
    have : (⟨lastOf (· = .quatW) Quat.one.w (new.map fun n => (n.type, c n)), lastOf (· = .quatX) Quat.one.x (new.map fun n => (n.type, c n)),
        lastOf (· = .quatY) Quat.one.y (new.map fun n => (n.type, c n)), lastOf (· = .quatZ) Quat.one.z (new.map fun n => (n.type, c n))⟩ :
        Quat) = q := by rw [hq']; rfl
    rw [this, Option.bind_some, Quat.normalize, if_neg hq0, Option.map_some]
    split_ifs
    · refine ⟨_, rfl, ?_, ?_⟩
      · rw [List.map_map]; exact List.map_congr_left fun o _ => negate_id o
      · intro o' ho'
        obtain ⟨o, h1, rfl⟩ := List.mem_map.mp ho'
        exact ⟨o, h1, negate_id o, negate_type o⟩
    · exact ⟨_, rfl, rfl, fun o h => ⟨o, h, rfl, rfl⟩⟩
  have hb : ∀ n ∈ new, OpType.isRotate n.type = false := by
    intro n hn'
    have := hsn n hn'
    revert this
    cases n.type <;> simp [SqtSupported, OpType.isQuat, OpType.isRotate, OpType.isTranslate, OpType.isScale]
  have ho' : Ascending (ops'.map (·.id)) := by rw [hid]; exact ho
  have ht' : ∀ o ∈ ops', ∀ n ∈ new, o.id = n.id → o.type = n.type := by
    intro o h n hn' e
    obtain ⟨o1, h1, e1, e2⟩ := htype o h
    rw [e2]; exact ht o1 h1 n hn' (e1 ▸ e)
  obtain ⟨l, h1, h2⟩ := mergeRec_merged OpType.isRotate pb hpb ops' new hm hb
  have hsl : ∀ o ∈ readAfter l ⌊pb.blendX⌋, SqtSupported o.1 := by
    intro o h
    obtain ⟨x, hx, rfl⟩ := List.mem_map.mp h
    rcases h2.outcome ho' hn x hx with ⟨a, ha, b, hb, e1, e2⟩ | ⟨a, ha, hb, e⟩ | ⟨b, hb, ha, a, e1, e2⟩
    · obtain ⟨o1, h1, -, e4⟩ := htype a ha
      change SqtSupported x.type
      rw [e2.2.1, e4]; exact hso o1 h1
    · obtain ⟨o1, h1, -, e4⟩ := htype a ha
      change SqtSupported x.type
      rw [e.2.1, e4]; exact hso o1 h1
    · change SqtSupported x.type
      rw [e2.2.1, e1.2.1]; exact hsn b hb
  have hsn' : ∀ o ∈ new.map fun n => (n.type, c n), SqtSupported o.1 := by
    intro o h
    obtain ⟨n, hn', rfl⟩ := List.mem_map.mp h
    exact hsn n hn'
  have key : ∀ (P : OpType → Bool) (d : ℝ), Component P d →
      lastOf P d (readAfter l ⌊pb.blendX⌋) = lastOf P d (new.map fun n => (n.type, c n)) := by
    intro P d hP
    obtain ⟨k1, k2⟩ := h2.component hpb hD c hc ht' ho' hn hP
    by_cases hex : ∃ n ∈ new, P n.type
    · obtain ⟨n, hn', hp⟩ := hex
      refine k1 (fun o h hno => ?_) d
      by_contra hcon
      obtain ⟨o1, h1, e1, e2⟩ := htype o h
      refine hclash o1 h1 (fun y hy => by rw [← e1]; exact hno y hy) n hn' ?_
      rw [← e2]
      exact hP.1 _ _ (by simpa using hcon) hp
    · have hno : ∀ n ∈ new, P n.type = false := fun n hn' => by
        by_contra h; exact hex ⟨n, hn', by simpa using h⟩
      rw [k2 hno, lastOf_none]
      intro o h
      obtain ⟨n, hn', rfl⟩ := List.mem_map.mp h
      exact hno n hn'
  have dq : OpType.quatW.default = 1 := by simp [OpType.default]
  have d0 : ∀ t : OpType, t.isScale = false → t ≠ .quatW → t.default = 0 := by intro t h1 h2; simp [OpType.default, h1, h2]
  have hraw : rawQuat (readAfter l ⌊pb.blendX⌋) = q := by
    rw [hq']
    unfold rawQuat
    rw [key _ _ (component_eq .quatW 1 dq), key _ _ (component_eq .quatX 0 (d0 _ rfl (by simp))), key _ _ (component_eq .quatY 0 (d0 _ rfl (by simp))), key _ _ (component_eq .quatZ 0 (d0 _ rfl (by simp)))]
  have hnorm : ∃ r, q.normalize = some r := by rw [Quat.normalize, if_neg hq0]; exact ⟨_, rfl⟩
  obtain ⟨r, hr⟩ := hnorm
  have heq : updateSqt (readAfter l ⌊pb.blendX⌋) = updateSqt (new.map fun n => (n.type, c n)) := by
    rw [updateSqt_eq _ hsl, updateSqt_eq _ hsn', hraw, ← hq']
    rw [key _ _ (component_eq .translateX 0 (d0 _ rfl (by simp))), key _ _ (component_eq .translateY 0 (d0 _ rfl (by simp))),
      key _ _ (component_eq .translateZ 0 (d0 _ rfl (by simp))),
      key _ _ (component_scale .scaleX rfl), key _ _ (component_scale .scaleY rfl), key _ _ (component_scale .scaleZ rfl)]
  obtain ⟨x, hx⟩ : ∃ x, updateSqt (new.map fun n => (n.type, c n)) = some x := by
    rw [updateSqt_eq _ hsn', ← hq', hr]
    exact ⟨_, rfl⟩
  exact ⟨l, x, by rw [blendToOpsSqt, ha, Option.bind_some, blendToOps_eq, h1], heq.trans hx, hx⟩

/-- From a uniform scale and a driven rotation to a pose that turns half way about x. -/
example : ∃ l r, blendToOpsSqt .one [⟨none, 3, .quatW, .initial 0⟩, ⟨none, 4, .quatX, .initial 1⟩] { blendX := 5 }
      ([⟨1, .scaleUniformly, none, 2⟩, ⟨3, .quatW, some (1, 1, 0), 0⟩] : List (Op stepDriver)) = some l ∧
    updateSqt (readAfter l 5) = some r ∧ r.scale = ![1, 1, 1] ∧ r.rotation = ⟨0, 1, 0, 0⟩ := by
  obtain ⟨l, r, h1, h2, h3⟩ := C65_pose stepDriver_obedient .one
    ([⟨1, .scaleUniformly, none, 2⟩, ⟨3, .quatW, some (1, 1, 0), 0⟩] : List (Op stepDriver))
    [⟨none, 3, .quatW, .initial 0⟩, ⟨none, 4, .quatX, .initial 1⟩]
    (fun n => match n.union with | .initial v => v | _ => 0) { blendX := 5 } ⟨0, 1, 0, 0⟩ (by norm_num)
    (by simp [Ascending]) (by simp [Ascending])
    (by
      intro n hn
      rcases List.mem_cons.mp hn with rfl | hn
      · exact .const _ _ _ (by norm_num)
      · rw [List.mem_singleton] at hn; subst hn; exact .const _ _ _ (by norm_num))
    (by simp) (by simp) (by simp [Clash, OpType.isScale])
    (by simp [SqtSupported, OpType.isQuat, OpType.isScale]) (by simp [SqtSupported, OpType.isQuat])
    (by rw [describes_iff]; simp [rawQuat, lastOf]) (by simp)
  rw [show ⌊({ blendX := 5 } : Playback).blendX⌋ = (5 : ℤ) by norm_num] at h2
  refine ⟨l, r, h1, h2, ?_⟩
  rw [updateSqt_eq _ (by simp [SqtSupported, OpType.isQuat])] at h3
  simp [rawQuat, lastOf, scaleKind, Quat.normalize, Quat.dot, Quat.smul] at h3
  rw [← h3]
  exact ⟨rfl, rfl⟩

/-- A uniform scale of the old animation overrides the scale about x of the new one, because it has the higher id: after the blend to a pose
that doubles x, the scale is one. -/
theorem C65_old_uniform_scale_wins : ∃ l r, blendToOpsSqt .one [⟨none, 1, .scaleX, .initial 2⟩] {}
      ([⟨9, .scaleUniformly, none, 3⟩] : List (Op stepDriver)) = some l ∧
    updateSqt (readAfter l 0) = some r ∧ r.scale = ![1, 1, 1] := by
  refine ⟨[⟨1, .scaleX, none, 2⟩, ⟨9, .scaleUniformly, none, 1⟩], ⟨transform ![0, 0, 0] Quat.one.toMatrix ![1, 1, 1], .one, ![1, 1, 1]⟩,
    ?_, ?_, rfl⟩
  · have : alignOps Quat.one ([⟨none, 1, .scaleX, .initial 2⟩] : List (OpInit stepDriver))
        ([⟨9, .scaleUniformly, none, 3⟩] : List (Op stepDriver)) = some [⟨9, .scaleUniformly, none, 3⟩] := by
      simp [alignOps, nextQuat, nextStep, Quat.normalize, Quat.one, Quat.dot, Quat.smul]
    rw [blendToOpsSqt, this, Option.bind_some, blendToOps_eq]
    simp [mergeRec, OpType.isRotate, OpInit.construct, OpInit.fresh, Op.blendToOp, Op.blendToDefault, OpType.default, OpType.isScale]
  · rw [updateSqt_eq _ (by simp [readAfter, SqtSupported, OpType.isScale])]
    simp [readAfter, Op.advance, Op.value, rawQuat, lastOf, scaleKind, Quat.normalize, Quat.dot, Quat.smul, Quat.one]

end
end Motive.Matrix4
