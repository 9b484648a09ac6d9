import Verif.Math.AngleProps
import Mathlib.Analysis.SpecialFunctions.Trigonometric.Deriv

/-!
# The camera of the viewer (C119)

The camera of `fplviewer` (src/viewer/viewer.cpp): where it is at the start, and what dragging with the mouse does to it.
Arithmetic is exact.  The failed assertion of the checked constructor of `Angle` is `none`.
-/

namespace Motive.Viewer

open Motive.Math.Angle Real

noncomputable section

/-! ### Model -/

/-- Product of `mathfu::vec3` by components, difference, cross product, and maximum by components. -/
def _root_.Motive.Math.Angle.Vec3.times (v w : Vec3) : Vec3 := ⟨v.x * w.x, v.y * w.y, v.z * w.z⟩
def _root_.Motive.Math.Angle.Vec3.minus (v w : Vec3) : Vec3 := ⟨v.x - w.x, v.y - w.y, v.z - w.z⟩
def _root_.Motive.Math.Angle.Vec3.neg (v : Vec3) : Vec3 := ⟨-v.x, -v.y, -v.z⟩
def _root_.Motive.Math.Angle.Vec3.cross (v w : Vec3) : Vec3 :=
  ⟨v.y * w.z - v.z * w.y, v.z * w.x - v.x * w.z, v.x * w.y - v.y * w.x⟩
def _root_.Motive.Math.Angle.Vec3.sup (v w : Vec3) : Vec3 := ⟨max v.x w.x, max v.y w.y, max v.z w.z⟩

/-- `Camera` (viewer.cpp:69-81), without the aspect ratio. -/
structure Camera where
  system : System
  distance : ℝ
  latitude : ℝ
  longitude : ℝ
  zNear : ℝ
  zFar : ℝ
  target : Vec3

/-- `model_width` (viewer.cpp:361-366). -/
def modelWidth (lo hi : Vec3) : ℝ :=
  let w := ((lo.sup hi).sup lo.neg).sup hi.neg
  max (max w.x w.y) w.z

/-- The constructor of `Camera` (viewer.cpp:332-372) for a mesh between `lo` and `hi`. -/
def Camera.start (s : System) (lo hi : Vec3) : Camera :=
  let distance := modelWidth lo hi * (1 / tan (π / 180 * 30))
  { system := s, distance := distance, latitude := 0, longitude := 0, zNear := distance / 32, zFar := distance * 256,
    target := ((lo.add hi).smul (1 / 2)).times (up s) }

/-- `CameraPosition` (viewer.cpp:374-380). -/
def Camera.position (c : Camera) : Vec3 := ((latLong c.system c.latitude c.longitude).smul c.distance).add c.target

/-- `CameraRight` (viewer.cpp:382-387). -/
def Camera.right (c : Camera) : Vec3 := (c.position.cross (up c.system)).neg

/-- The mouse in one iteration of the loop: whether the pointer is in use, which of its left (`K_POINTER1`), middle
(`K_POINTER2`) and right (`K_POINTER3`) buttons are down, and by how many pixels it has moved. -/
structure Mouse where
  used : Bool
  left : Bool
  middle : Bool
  right : Bool
  dx : ℤ
  dy : ℤ

/-- `pointer.mousedelta != mathfu::kZeros2i`. -/
def Mouse.moved (m : Mouse) : Bool := decide (m.dx ≠ 0 ∨ m.dy ≠ 0)

/-- `kMaxLatitude` (viewer.cpp:85). -/
def maxLatitude : ℝ := π / 180 * 85

/-- The first drag of `UpdateCamera` (viewer.cpp:405-411), with the assertions of the constructor of `Angle`. -/
def Camera.turn (c : Camera) (m : Mouse) : Option Camera :=
  let lat := c.latitude + m.dy * (π / 180 * (15 / 100))
  (Motive.Math.Angle.mk π (max (-maxLatitude) (min lat maxLatitude))).bind fun latitude =>
    (Motive.Math.Angle.mk π (m.dx * (π / 180 * (3 / 10)))).bind fun turn =>
      (Motive.Math.Angle.add π c.longitude turn).map fun longitude => { c with latitude := latitude, longitude := longitude }

/-- The second drag (viewer.cpp:415-421). -/
def Camera.zoom (c : Camera) (m : Mouse) : Camera :=
  { c with distance := max (c.distance + (m.dx + m.dy) * (1 / 10)) c.zNear }

/-- The third drag (viewer.cpp:424-430). -/
def Camera.pan (c : Camera) (m : Mouse) : Camera :=
  { c with target := c.target.add ((c.right.smul (1 / 1000 * m.dx)).add ((up c.system).smul (1 / 1000 * m.dy))) }

/-- `UpdateCamera` (viewer.cpp:400-431). -/
def Camera.update (c : Camera) (m : Mouse) : Option Camera :=
  if m.used = false then some c
  else
    (if m.left && m.moved then c.turn m else some c).map fun c =>
      let c := if m.right && m.moved then c.zoom m else c
      if m.middle && m.moved then c.pan m else c

/-- The loop. -/
def Camera.run (c : Camera) : List Mouse → Option Camera
  | [] => some c
  | m :: ms => (c.update m).bind fun c => c.run ms

/-! ### Specification -/

/-- From the target to the camera. -/
def Camera.sight (c : Camera) : Vec3 := c.position.minus c.target

/-- The view is defined: the camera is not at its target, and does not look along the up axis. -/
def Camera.CanLook (c : Camera) : Prop := c.sight.dot c.sight ≠ 0 ∧ (c.sight.cross (up c.system)).dot (c.sight.cross (up c.system)) ≠ 0

/-- A mesh that is more than a point at the origin. -/
def Extended (lo hi : Vec3) : Prop := ¬ (lo = ⟨0, 0, 0⟩ ∧ hi = ⟨0, 0, 0⟩)

/-- Turning by less than half a turn in one iteration. -/
def Slow (m : Mouse) : Prop := -600 < m.dx ∧ m.dx ≤ 600

/-- A point of the box between `lo` and `hi`. -/
def Inside (lo hi p : Vec3) : Prop := (lo.x ≤ p.x ∧ p.x ≤ hi.x) ∧ (lo.y ≤ p.y ∧ p.y ≤ hi.y) ∧ (lo.z ≤ p.z ∧ p.z ≤ hi.z)

/-- How far in front of the camera a point is, along the direction of view. -/
def Camera.depth (c : Camera) (p : Vec3) : ℝ := (c.position.minus p).dot (latLong c.system c.latitude c.longitude)

/-! ### Theorems -/

theorem width_le (lo hi : Vec3) :
    (|lo.x| ≤ modelWidth lo hi ∧ |lo.y| ≤ modelWidth lo hi ∧ |lo.z| ≤ modelWidth lo hi) ∧
      |hi.x| ≤ modelWidth lo hi ∧ |hi.y| ≤ modelWidth lo hi ∧ |hi.z| ≤ modelWidth lo hi := by
  refine ⟨⟨abs_le'.mpr ⟨?_, ?_⟩, abs_le'.mpr ⟨?_, ?_⟩, abs_le'.mpr ⟨?_, ?_⟩⟩, abs_le'.mpr ⟨?_, ?_⟩, abs_le'.mpr ⟨?_, ?_⟩,
    abs_le'.mpr ⟨?_, ?_⟩⟩ <;>
    simp only [modelWidth, Vec3.sup, Vec3.neg, le_max_iff, le_refl, true_or, or_true]

theorem width_pos {lo hi : Vec3} (h : Extended lo hi) : 0 < modelWidth lo hi := by
  obtain ⟨⟨a1, a2, a3⟩, b1, b2, b3⟩ := width_le lo hi
  by_contra hc
  push Not at hc
  have z : ∀ {x : ℝ}, |x| ≤ modelWidth lo hi → x = 0 := fun hx => abs_nonpos_iff.mp (hx.trans hc)
  apply h
  obtain ⟨lx, ly, lz⟩ := lo
  obtain ⟨hx, hy, hz⟩ := hi
  simp only [Vec3.mk.injEq]
  exact ⟨⟨z a1, z a2, z a3⟩, z b1, z b2, z b3⟩

theorem cot_eq : 1 / tan (π / 180 * 30) = √3 := by
  rw [show π / 180 * 30 = π / 6 by ring, tan_pi_div_six]
  field_simp

theorem start_distance (s : System) (lo hi : Vec3) : (Camera.start s lo hi).distance = modelWidth lo hi * √3 := by
  simp only [Camera.start, cot_eq]

theorem sight_eq (c : Camera) : c.sight = (latLong c.system c.latitude c.longitude).smul c.distance := by
  simp only [Camera.sight, Camera.position, Vec3.minus, Vec3.add, Vec3.smul, add_sub_cancel_right]

theorem up_dot (s : System) : (up s).dot (up s) = 1 := by cases s <;> simp [up, Vec3.dot]

theorem lagrange (v w : Vec3) : (v.cross w).dot (v.cross w) = v.dot v * w.dot w - v.dot w * v.dot w := by
  simp only [Vec3.cross, Vec3.dot]; ring

theorem smul_dot (a : ℝ) (v w : Vec3) : (v.smul a).dot w = a * v.dot w := by
  simp only [Vec3.smul, Vec3.dot]; ring

theorem dot_comm (v w : Vec3) : v.dot w = w.dot v := by
  simp only [Vec3.dot]; ring

theorem sight_sizes (c : Camera) : c.sight.dot c.sight = c.distance ^ 2 ∧ c.sight.dot (up c.system) = c.distance * sin c.latitude ∧
    (c.sight.cross (up c.system)).dot (c.sight.cross (up c.system)) = (c.distance * cos c.latitude) ^ 2 := by
  obtain ⟨h1, h2, -⟩ := C56_lat_long c.system c.latitude c.longitude
  have e1 : c.sight.dot c.sight = c.distance ^ 2 := by
    rw [sight_eq, smul_dot, dot_comm, smul_dot, h1]; ring
  have e2 : c.sight.dot (up c.system) = c.distance * sin c.latitude := by rw [sight_eq, smul_dot, h2]
  refine ⟨e1, e2, ?_⟩
  rw [lagrange, e1, e2, up_dot]
  have := sin_sq_add_cos_sq c.latitude
  linear_combination (-(c.distance ^ 2)) * this

/-- What holds of the camera at all times. -/
structure Camera.Sound (c c' : Camera) : Prop where
  system : c'.system = c.system
  planes : c'.zNear = c.zNear ∧ c'.zFar = c.zFar
  latitude : |c'.latitude| ≤ maxLatitude
  longitude : Valid π c'.longitude
  distance : c.zNear ≤ c'.distance

theorem maxLatitude_pos : 0 < maxLatitude := by unfold maxLatitude; positivity
theorem maxLatitude_lt : maxLatitude < π / 2 := by unfold maxLatitude; linarith [pi_pos]

theorem clamp_abs (x : ℝ) : |max (-maxLatitude) (min x maxLatitude)| ≤ maxLatitude := by
  have := maxLatitude_pos
  rw [abs_le]
  exact ⟨le_max_left _ _, max_le (by linarith) (min_le_right _ _)⟩

theorem clamp_valid (x : ℝ) : Valid π (max (-maxLatitude) (min x maxLatitude)) := by
  have h := abs_le.mp (clamp_abs x)
  have := maxLatitude_lt
  exact ⟨by linarith [pi_pos], by linarith [pi_pos]⟩

theorem slow_valid {m : Mouse} : Valid π ((m.dx : ℝ) * (π / 180 * (3 / 10))) ↔ Slow m := by
  unfold Valid Slow
  have hp := pi_pos
  have e : (m.dx : ℝ) * (π / 180 * (3 / 10)) = m.dx * (π / 600) := by ring
  rw [e]
  have hp' : 0 < π / 600 := by positivity
  constructor
  · rintro ⟨h1, h2⟩
    constructor
    · have : (-600 : ℝ) < m.dx := by
        by_contra hc; push Not at hc; nlinarith
      exact_mod_cast this
    · have : (m.dx : ℝ) ≤ 600 := by
        by_contra hc; push Not at hc; nlinarith
      exact_mod_cast this
  · rintro ⟨h1, h2⟩
    have h1' : (-600 : ℝ) < m.dx := by exact_mod_cast h1
    have h2' : (m.dx : ℝ) ≤ 600 := by exact_mod_cast h2
    constructor <;> nlinarith

/-- **C119**: the left button turns the camera about the target: the latitude by 0.15 degrees for each pixel, up to 85 degrees,
the longitude by 0.3 degrees for each pixel, around the circle, and nothing else changes. -/
theorem C119_turn (c : Camera) (hl : Valid π c.longitude) (m : Mouse) (hs : Slow m) :
    ∃ l, c.turn m = some { c with
        latitude := max (-(85 * (π / 180))) (min (c.latitude + m.dy * (15 / 100 * (π / 180))) (85 * (π / 180))),
        longitude := l } ∧
      -π < l ∧ l ≤ π ∧ ∃ k : ℤ, l = c.longitude + m.dx * (3 / 10 * (π / 180)) + k * (2 * π) := by
  obtain ⟨y, e, hv, k, hk⟩ := (C19_operations π pi_pos).1 c.longitude _ hl (slow_valid.mpr hs)
  refine ⟨y, ?_, hv.1, hv.2, ?_⟩
  · unfold Camera.turn
    dsimp only
    rw [mk_valid (clamp_valid _), Option.bind_some, mk_valid (slow_valid.mpr hs), Option.bind_some, e, Option.map_some]
    unfold maxLatitude
    congr 2
    rw [mul_comm (π / 180) 85, mul_comm (π / 180) (15 / 100)]
  · exact ⟨k, by rw [hk]; ring⟩

theorem sound_update {c0 c : Camera} (h : c0.Sound c) {m : Mouse} (hs : m.used = true → m.left = true → Slow m) :
    ∃ c', c.update m = some c' ∧ c0.Sound c' := by
  unfold Camera.update
  by_cases hu : m.used = false
  · rw [if_pos hu]; exact ⟨c, rfl, h⟩
  rw [if_neg hu]
  have hu' : m.used = true := by simpa using hu
  have h1 : ∃ c1, (if m.left && m.moved then c.turn m else some c) = some c1 ∧ c0.Sound c1 := by
    split_ifs with hb
    · simp only [Bool.and_eq_true] at hb
      obtain ⟨l, e, l1, l2, -⟩ := C119_turn c h.longitude m (hs hu' hb.1)
      refine ⟨_, e, ⟨h.system, h.planes, ?_, ⟨l1, l2⟩, h.distance⟩⟩
      have := clamp_abs (c.latitude + m.dy * (15 / 100 * (π / 180)))
      unfold maxLatitude at this ⊢
      rw [mul_comm (π / 180) 85] at this ⊢
      exact this
    · exact ⟨c, rfl, h⟩
  obtain ⟨c1, e1, s1⟩ := h1
  rw [e1, Option.map_some]
  refine ⟨_, rfl, ?_⟩
  dsimp only
  have s2 : c0.Sound (if m.right && m.moved then c1.zoom m else c1) := by
    split_ifs
    · refine ⟨s1.system, s1.planes, s1.latitude, s1.longitude, ?_⟩
      show c0.zNear ≤ max _ c1.zNear
      rw [← s1.planes.1]
      exact le_max_right _ _
    · exact s1
  by_cases hmid : (m.middle && m.moved) = true
  · rw [if_pos hmid]; exact ⟨s2.system, s2.planes, s2.latitude, s2.longitude, s2.distance⟩
  · rw [if_neg hmid]; exact s2

theorem sound_run {c0 : Camera} : ∀ {ms : List Mouse} {c : Camera}, c0.Sound c →
    (∀ m ∈ ms, m.used = true → m.left = true → Slow m) → ∃ c', c.run ms = some c' ∧ c0.Sound c'
  | [], c, h, _ => ⟨c, rfl, h⟩
  | m :: ms, c, h, hs => by
    obtain ⟨c1, e1, s1⟩ := sound_update h (hs m (by simp))
    obtain ⟨c2, e2, s2⟩ := sound_run s1 (ms := ms) (fun x hx => hs x (by simp [hx]))
    exact ⟨c2, by rw [Camera.run, e1, Option.bind_some, e2], s2⟩

/-- **C119**: for every mesh that is not a point, whatever is dragged and however long, as long as no drag turns the camera by
half a turn or more in one iteration, the camera stays at its distance from its target, at least the distance of the near
plane, within 85 degrees of the horizon, and the view from it is defined. -/
theorem C119_orbit (s : System) (lo hi : Vec3) (hm : Extended lo hi) (ms : List Mouse)
    (hs : ∀ m ∈ ms, m.used = true → m.left = true → Slow m) :
    ∃ c, (Camera.start s lo hi).run ms = some c ∧ c.system = s ∧ 0 < c.zNear ∧ c.zNear ≤ c.distance ∧ c.zNear < c.zFar ∧
      |c.latitude| ≤ 85 * (π / 180) ∧ (-π < c.longitude ∧ c.longitude ≤ π) ∧
      c.sight.dot c.sight = c.distance ^ 2 ∧ c.sight.dot (up s) = c.distance * sin c.latitude ∧ c.CanLook := by
  have hd : 0 < (Camera.start s lo hi).distance := by
    rw [start_distance]; exact mul_pos (width_pos hm) (by positivity)
  have hn : (Camera.start s lo hi).zNear = (Camera.start s lo hi).distance / 32 := rfl
  have hf : (Camera.start s lo hi).zFar = (Camera.start s lo hi).distance * 256 := rfl
  have h0 : (Camera.start s lo hi).Sound (Camera.start s lo hi) := by
    refine ⟨rfl, ⟨rfl, rfl⟩, ?_, ?_, ?_⟩
    · show |(0 : ℝ)| ≤ _
      rw [abs_zero]; exact maxLatitude_pos.le
    · show Valid π 0
      exact ⟨by linarith [pi_pos], pi_pos.le⟩
    · rw [hn]; linarith
  obtain ⟨c, e, ⟨c1, ⟨c2, c3⟩, c4, c5, c6⟩⟩ := sound_run h0 hs
  obtain ⟨z1, z2, z3⟩ := sight_sizes c
  have hsys : c.system = s := c1
  have hz : 0 < c.zNear := by rw [c2, hn]; linarith
  have hdc : 0 < c.distance := by rw [hn] at c6; linarith
  have hcos : 0 < cos c.latitude := by
    obtain ⟨l1, l2⟩ := abs_le.mp c4
    have := maxLatitude_lt
    exact cos_pos_of_mem_Ioo ⟨by linarith, by linarith⟩
  refine ⟨c, e, hsys, hz, by rw [c2]; exact c6, ?_, ?_, c5, z1, by rw [← hsys]; exact z2, ?_, ?_⟩
  · rw [c2, c3, hn, hf]; linarith
  · unfold maxLatitude at c4; rw [mul_comm] at c4; exact c4
  · rw [z1]; positivity
  · rw [z3]; positivity

/-- **C119**: the right button changes the distance by 0.1 for each pixel, down to the near plane, and nothing else; the middle
button moves target and camera by the same vector, and nothing else: along the up axis by 0.001 for each pixel of height, and
at right angles to the up axis. -/
theorem C119_zoom_and_pan (c : Camera) (m : Mouse) :
    c.zoom m = { c with distance := max (c.distance + (m.dx + m.dy) / 10) c.zNear } ∧
    (∃ t, c.pan m = { c with target := t }) ∧
    (c.pan m).position.minus c.position = (c.pan m).target.minus c.target ∧
    ((c.pan m).target.minus c.target).dot (up c.system) = m.dy / 1000 := by
  have hup := up_dot c.system
  refine ⟨?_, ⟨_, rfl⟩, ?_, ?_⟩
  · unfold Camera.zoom; congr 2; ring
  · simp only [Camera.position, Camera.pan, Vec3.minus, Vec3.add, Vec3.smul, Vec3.mk.injEq]
    refine ⟨?_, ?_, ?_⟩ <;> ring
  · simp only [Vec3.dot] at hup
    simp only [Camera.pan, Camera.right, Vec3.minus, Vec3.add, Vec3.smul, Vec3.cross, Vec3.neg, Vec3.dot]
    linear_combination (m.dy / 1000 : ℝ) * hup

/-- **C119**: while the target is on the up axis, as it is until the middle button drags it sideways, that drag moves to the
right of the view: at right angles to the direction of view and to the up axis, by 0.001 for each pixel of the camera's
distance from the axis. -/
theorem C119_pan_right (c : Camera) (m : Mouse) (h : ℝ) (ht : c.target = (up c.system).smul h) (hy : m.dy = 0) :
    (c.pan m).target.minus c.target = (((up c.system).cross c.sight).smul (m.dx / 1000)) ∧
    ((c.pan m).target.minus c.target).dot c.sight = 0 ∧ ((c.pan m).target.minus c.target).dot (up c.system) = 0 := by
  have e : (c.pan m).target.minus c.target = (((up c.system).cross c.sight).smul (m.dx / 1000)) := by
    simp only [Camera.pan, Camera.right, Camera.sight, Camera.position, ht, hy, Vec3.minus, Vec3.add, Vec3.smul, Vec3.cross,
      Vec3.neg, Vec3.mk.injEq, Int.cast_zero]
    refine ⟨?_, ?_, ?_⟩ <;> ring
  refine ⟨e, ?_, ?_⟩ <;> rw [e] <;> simp only [Vec3.smul, Vec3.cross, Vec3.dot] <;> ring

/-- At the start the target is on the up axis. -/
theorem start_target (s : System) (lo hi : Vec3) : ∃ h, (Camera.start s lo hi).target = (up s).smul h := by
  cases s
  · exact ⟨(1 / 2) * (lo.z + hi.z), by simp [Camera.start, up, Vec3.times, Vec3.smul, Vec3.add]⟩
  · exact ⟨(1 / 2) * (lo.y + hi.y), by simp [Camera.start, up, Vec3.times, Vec3.smul, Vec3.add]⟩
  · exact ⟨(1 / 2) * (lo.x + hi.x), by simp [Camera.start, up, Vec3.times, Vec3.smul, Vec3.add]⟩
  · exact ⟨(1 / 2) * (lo.z + hi.z), by simp [Camera.start, up, Vec3.times, Vec3.smul, Vec3.add]⟩
  · exact ⟨(1 / 2) * (lo.y + hi.y), by simp [Camera.start, up, Vec3.times, Vec3.smul, Vec3.add]⟩
  · exact ⟨(1 / 2) * (lo.x + hi.x), by simp [Camera.start, up, Vec3.times, Vec3.smul, Vec3.add]⟩

/-- **C119**: at the start the whole model lies between the near and the far plane. -/
theorem C119_start_depth (s : System) (lo hi : Vec3) (hm : Extended lo hi) (p : Vec3) (hp : Inside lo hi p) :
    (Camera.start s lo hi).zNear < (Camera.start s lo hi).depth p ∧
      (Camera.start s lo hi).depth p < (Camera.start s lo hi).zFar := by
  set w := modelWidth lo hi with hw
  have hwp : 0 < w := width_pos hm
  have h3 : (17 / 10 : ℝ) < √3 := by rw [Real.lt_sqrt (by norm_num)]; norm_num
  have h3' : √3 < (18 / 10 : ℝ) := by rw [Real.sqrt_lt' (by norm_num)]; norm_num
  obtain ⟨⟨a1, a2, a3⟩, b1, b2, b3⟩ := width_le lo hi
  rw [← hw] at a1 a2 a3 b1 b2 b3
  rw [abs_le] at a1 a2 a3 b1 b2 b3
  obtain ⟨⟨p1, p2⟩, ⟨p3, p4⟩, p5, p6⟩ := hp
  have hd := start_distance s lo hi
  rw [← hw] at hd
  have hn : (Camera.start s lo hi).zNear = (Camera.start s lo hi).distance / 32 := rfl
  have hf : (Camera.start s lo hi).zFar = (Camera.start s lo hi).distance * 256 := rfl
  have hdep : ∃ x, -w ≤ x ∧ x ≤ w ∧ (Camera.start s lo hi).depth p = (Camera.start s lo hi).distance - x := by
    cases s
    · exact ⟨p.x, by linarith, by linarith, by simp [Camera.depth, Camera.position, Camera.start, latLong, toVector, up, Vec3.times, Vec3.smul, Vec3.add, Vec3.minus, Vec3.dot]⟩
    · exact ⟨p.x, by linarith, by linarith, by simp [Camera.depth, Camera.position, Camera.start, latLong, toVector, up, Vec3.times, Vec3.smul, Vec3.add, Vec3.minus, Vec3.dot]⟩
    · exact ⟨p.y, by linarith, by linarith, by simp [Camera.depth, Camera.position, Camera.start, latLong, toVector, up, Vec3.times, Vec3.smul, Vec3.add, Vec3.minus, Vec3.dot]⟩
    · exact ⟨p.y, by linarith, by linarith, by simp [Camera.depth, Camera.position, Camera.start, latLong, toVector, up, Vec3.times, Vec3.smul, Vec3.add, Vec3.minus, Vec3.dot]⟩
    · exact ⟨p.z, by linarith, by linarith, by simp [Camera.depth, Camera.position, Camera.start, latLong, toVector, up, Vec3.times, Vec3.smul, Vec3.add, Vec3.minus, Vec3.dot]⟩
    · exact ⟨p.z, by linarith, by linarith, by simp [Camera.depth, Camera.position, Camera.start, latLong, toVector, up, Vec3.times, Vec3.smul, Vec3.add, Vec3.minus, Vec3.dot]⟩
  obtain ⟨x, x1, x2, e⟩ := hdep
  rw [e, hn, hf, hd]
  constructor <;> nlinarith

/-! ### What goes wrong -/

/-- A drag of more than 600 pixels to the right, or at least 600 to the left, in one iteration, fails an assertion: half a turn is not a valid
`Angle`. -/
theorem C119_fast_drag_fails (c : Camera) (m : Mouse) (hu : m.used = true) (hl : m.left = true) (hf : ¬ Slow m) :
    c.update m = none := by
  have hmv : m.moved = true := by
    unfold Mouse.moved
    unfold Slow at hf
    simp only [decide_eq_true_eq]
    by_contra hc
    push Not at hc
    apply hf
    rw [hc.1]; norm_num
  have ht : c.turn m = none := by
    unfold Camera.turn
    dsimp only
    rw [mk_valid (clamp_valid _), Option.bind_some]
    unfold Motive.Math.Angle.mk
    rw [if_neg (fun h => hf (slow_valid.mp h)), Option.bind_none]
  simp [Camera.update, hu, hl, hmv, ht]

/-- For a mesh that is a point at the origin the camera is at its target. -/
theorem C119_point_model_fails (s : System) : ¬ (Camera.start s ⟨0, 0, 0⟩ ⟨0, 0, 0⟩).CanLook := by
  intro h
  apply h.1
  rw [(sight_sizes _).1, start_distance]
  simp [modelWidth, Vec3.sup, Vec3.neg]

/-- The unit cube about the origin, doubled. -/
def cubeLo : Vec3 := ⟨-1, -1, -1⟩
def cubeHi : Vec3 := ⟨1, 1, 1⟩

theorem cube_start : Camera.start .XY cubeLo cubeHi = ⟨.XY, √3, 0, 0, √3 / 32, √3 * 256, ⟨0, 0, 0⟩⟩ := by
  have hw : modelWidth cubeLo cubeHi = 1 := by norm_num [modelWidth, cubeLo, cubeHi, Vec3.sup, Vec3.neg]
  unfold Camera.start
  simp only [cot_eq, hw, one_mul]
  norm_num [cubeLo, cubeHi, Vec3.add, Vec3.smul, Vec3.times, up]

/-- Dragging with the middle button by 100 pixels to the right and then by 100 pixels to the left does not bring the camera
back: "right" is taken from the position of the camera instead of its direction of view. -/
theorem C119_pan_does_not_return :
    ∃ c, (Camera.start .XY cubeLo cubeHi).run
        [⟨true, false, true, false, 100, 0⟩, ⟨true, false, true, false, -100, 0⟩] = some c ∧
      (Camera.start .XY cubeLo cubeHi).target = ⟨0, 0, 0⟩ ∧ c.target = ⟨√3 / 100, 0, 0⟩ := by
  rw [cube_start]
  refine ⟨_, rfl, rfl, ?_⟩
  simp [Mouse.moved, Camera.pan, Camera.right, Camera.position, latLong, toVector, up, Vec3.add, Vec3.smul, Vec3.cross,
    Vec3.neg]
  ring

theorem tan_small : 4 / 3 * (√3 * tan (π / 8)) < 1 := by
  have c : 0 < cos (π / 8) := cos_pos_of_mem_Ioo ⟨by linarith [pi_pos], by linarith [pi_pos]⟩
  have sp : 0 < sin (π / 8) := sin_pos_of_pos_of_lt_pi (by positivity) (by linarith [pi_pos])
  have t : 0 < tan (π / 8) := by rw [tan_eq_sin_div_cos]; positivity
  have h2 : 26 / 19 < √2 := by rw [Real.lt_sqrt (by norm_num)]; norm_num
  have hs : sin (π / 8) ^ 2 = (2 - √2) / 4 := by
    rw [sin_pi_div_eight, div_pow, Real.sq_sqrt]
    · norm_num
    · have : √2 < 2 := by rw [Real.sqrt_lt' (by norm_num)]; norm_num
      linarith
  have hc : cos (π / 8) ^ 2 = (2 + √2) / 4 := by
    rw [cos_pi_div_eight, div_pow, Real.sq_sqrt (by positivity)]
    norm_num
  have ht : tan (π / 8) ^ 2 < 3 / 16 := by
    rw [tan_eq_sin_div_cos, div_pow, hs, hc, div_lt_iff₀ (by positivity)]
    linarith
  have hsq : (4 / 3 * (√3 * tan (π / 8))) ^ 2 < 1 := by
    have : (4 / 3 * (√3 * tan (π / 8))) ^ 2 = 16 / 9 * (√3 ^ 2 * tan (π / 8) ^ 2) := by ring
    rw [this, Real.sq_sqrt (by norm_num)]
    linarith
  nlinarith [mul_pos (by positivity : (0 : ℝ) < √3) t]

/-- The camera starts too close to show the whole model: the field of view of 45 degrees (viewer.cpp:93-94) is 22.5 degrees
to each side, and 4/3 of it in width in a window of 800 by 600 (viewer.cpp:502), but the distance is chosen for 30 degrees.
The middles of the top and of the right side of a cube are outside of the picture. -/
theorem C119_model_cut_off :
    ∃ top right : Vec3, Inside cubeLo cubeHi top ∧ Inside cubeLo cubeHi right ∧
      (Camera.start .XY cubeLo cubeHi).depth top * tan (45 / 2 * (π / 180)) < top.dot (up .XY) ∧
      4 / 3 * ((Camera.start .XY cubeLo cubeHi).depth right * tan (45 / 2 * (π / 180))) < right.y := by
  have e : 45 / 2 * (π / 180) = π / 8 := by ring
  have ht := tan_small
  have htp : 0 < √3 * tan (π / 8) := by
    refine mul_pos (by positivity) ?_
    exact tan_pos_of_pos_of_lt_pi_div_two (by positivity) (by linarith [pi_pos])
  refine ⟨⟨0, 0, 1⟩, ⟨0, 1, 0⟩, by norm_num [Inside, cubeLo, cubeHi], by norm_num [Inside, cubeLo, cubeHi], ?_, ?_⟩ <;>
    rw [cube_start, e] <;>
    simp [Camera.depth, Camera.position, latLong, toVector, up, Vec3.add, Vec3.smul, Vec3.minus, Vec3.dot] <;> linarith

/-- A long drag with all buttons, of a mesh that stands on the floor. -/
example : ∃ c, (Camera.start .XZ ⟨-1, 0, -1⟩ ⟨1, 2, 1⟩).run [⟨true, true, true, true, 500, 300⟩, ⟨true, true, false, false, -599, 7⟩] =
    some c ∧ c.CanLook := by
  obtain ⟨c, e, -, -, -, -, -, -, -, -, h⟩ := C119_orbit .XZ ⟨-1, 0, -1⟩ ⟨1, 2, 1⟩ (by simp [Extended])
    [⟨true, true, true, true, 500, 300⟩, ⟨true, true, false, false, -599, 7⟩] (by simp [Slow])
  exact ⟨c, e, h⟩

end

end Motive.Viewer
