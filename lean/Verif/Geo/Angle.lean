import Verif.Geo.RotMatrix
import Mathlib.Analysis.SpecialFunctions.Complex.Arg
/- Property C102: rotations as angle and axis, and as Rodrigues vectors. -/
namespace Vital.Geo
open Quat Rotation

/-- `std::atan2( y, x )` -/
noncomputable def atan2 (y x : ℝ) : ℝ := Complex.arg ⟨x, y⟩

/-- `Quaternion( AngleAxis( angle, axis ) )` -/
-- models: Eigen/src/Geometry/Quaternion.h (operator= of an AngleAxis)
noncomputable def angleAxis (a : ℝ) (u : V3) : Quat :=
  ⟨Real.cos (0.5 * a), Real.sin (0.5 * a) * u.x, Real.sin (0.5 * a) * u.y, Real.sin (0.5 * a) * u.z⟩

namespace Rotation

-- models: vital/types/rotation.cxx:57-73 (constructor from a Rodrigues vector)
noncomputable def ofRodrigues (v : V3) : Rotation :=
  open Classical in
  if v.norm = 0 then ⟨⟨1, 0, 0, 0⟩⟩ else ⟨angleAxis v.norm (v.div v.norm)⟩

-- models: vital/types/rotation.cxx:76-82 (constructor from angle and axis)
noncomputable def ofAngleAxis (a : ℝ) (u : V3) : Rotation := ⟨angleAxis a u.normalized⟩

-- models: vital/types/rotation.cxx:130-145 (axis)
noncomputable def axis (r : Rotation) : V3 :=
  open Classical in
  if r.q.vec.norm = 0 then ⟨0, 0, 1⟩ else r.q.vec.div r.q.vec.norm

-- models: vital/types/rotation.cxx:148-172 (angle; LOCAL_PI is taken as π)
noncomputable def angle (r : Rotation) : ℝ :=
  let a := 2 * atan2 r.q.vec.norm r.q.w
  let a := if Real.pi ≤ a then a - 2 * Real.pi else a
  if a ≤ -Real.pi then a + 2 * Real.pi else a

-- models: vital/types/rotation.cxx:175-188 (rodrigues)
noncomputable def rodrigues (r : Rotation) : V3 :=
  open Classical in
  if r.angle = 0 then ⟨0, 0, 0⟩ else r.angle • r.axis

/-- Two rotations that do the same to every vector. -/
def Same (r s : Rotation) : Prop := ∀ v, r.apply v = s.apply v

end Rotation

theorem angleAxis_unit {u : V3} (h : u.dot u = 1) (a : ℝ) : (⟨angleAxis a u⟩ : Rotation).Unit := by
  unfold Rotation.Unit sqNorm angleAxis V3.dot at *
  simp only
  have := Real.sin_sq_add_cos_sq (0.5 * a)
  linear_combination (Real.sin (0.5 * a)) ^ 2 * h + this

theorem atan2_spec {y x : ℝ} (h : x * x + y * y = 1) : Real.cos (atan2 y x) = x ∧ Real.sin (atan2 y x) = y := by
  have hn : ‖(⟨x, y⟩ : ℂ)‖ = 1 := by
    rw [Complex.norm_eq_sqrt_sq_add_sq]
    rw [show x ^ 2 + y ^ 2 = 1 by linarith]
    exact Real.sqrt_one
  have h0 : (⟨x, y⟩ : ℂ) ≠ 0 := by
    intro e
    rw [e] at hn
    simp at hn
  unfold atan2
  constructor
  · rw [Complex.cos_arg h0, hn]; simp
  · rw [Complex.sin_arg, hn]; simp

theorem atan2_nonneg {y x : ℝ} (h : 0 ≤ y) : 0 ≤ atan2 y x ∧ atan2 y x ≤ Real.pi :=
  ⟨Complex.arg_nonneg_iff.2 h, Complex.arg_le_pi _⟩

theorem atan2_of {c t : ℝ} (hc : 0 < c) (h1 : -Real.pi < t) (h2 : t ≤ Real.pi) : atan2 (c * Real.sin t) (c * Real.cos t) = t := by
  unfold atan2
  have : (⟨c * Real.cos t, c * Real.sin t⟩ : ℂ) = (c : ℂ) * (Complex.cos t + Complex.sin t * Complex.I) := by
    apply Complex.ext
    · simp [← Complex.ofReal_cos, ← Complex.ofReal_sin]
    · simp [← Complex.ofReal_cos, ← Complex.ofReal_sin]
  rw [this, Complex.arg_mul_cos_add_sin_mul_I hc ⟨h1, h2⟩]

/-- The axis is a unit vector. -/
theorem axis_unit (r : Rotation) : r.axis.dot r.axis = 1 := by
  unfold Rotation.axis
  split
  · simp [V3.dot]
  · rename_i h
    have h0 : r.q.vec ≠ 0 := fun e => h (by rw [e]; exact V3.norm_eq_zero.2 rfl)
    have := V3.normalized_dot h0
    rwa [V3.normalized_of_ne h0] at this

theorem vec_axis (r : Rotation) : r.q.vec = r.q.vec.norm • r.axis := by
  unfold Rotation.axis
  split
  · rename_i h
    have h0 := V3.norm_eq_zero.1 h
    rw [h, h0]
    ext <;> simp
  · rename_i h
    unfold V3.div
    ext <;> simp only [V3.smul_x, V3.smul_y, V3.smul_z] <;> field_simp

/-- The half angle, from the quaternion. -/
theorem angle_spec {r : Rotation} (h : r.Unit) :
    -Real.pi < r.angle ∧ r.angle ≤ Real.pi ∧
    ((Real.cos (0.5 * r.angle) = r.q.w ∧ Real.sin (0.5 * r.angle) = r.q.vec.norm) ∨
     (Real.cos (0.5 * r.angle) = -r.q.w ∧ Real.sin (0.5 * r.angle) = -r.q.vec.norm)) := by
  have hn : r.q.w * r.q.w + r.q.vec.norm * r.q.vec.norm = 1 := by
    rw [V3.norm_sq]
    unfold Rotation.Unit sqNorm at h
    unfold V3.dot vec
    linarith
  obtain ⟨hc, hs⟩ := atan2_spec hn
  obtain ⟨h0, h1⟩ := atan2_nonneg (y := r.q.vec.norm) (x := r.q.w) (V3.norm_nonneg _)
  have hpi := Real.pi_pos
  unfold Rotation.angle
  simp only
  generalize atan2 r.q.vec.norm r.q.w = t at *
  by_cases h2 : Real.pi ≤ 2 * t
  · rw [if_pos h2]
    by_cases h3 : 2 * t - 2 * Real.pi ≤ -Real.pi
    · rw [if_pos h3]
      have : t = Real.pi / 2 := by linarith
      refine ⟨by linarith, by linarith, .inl ?_⟩
      have e : 0.5 * (2 * t - 2 * Real.pi + 2 * Real.pi) = t := by ring
      rw [e]
      exact ⟨hc, hs⟩
    · rw [if_neg h3]
      refine ⟨by linarith, by linarith, .inr ?_⟩
      have e : 0.5 * (2 * t - 2 * Real.pi) = t - Real.pi := by ring
      rw [e, Real.cos_sub_pi, Real.sin_sub_pi, hc, hs]
      exact ⟨rfl, rfl⟩
  · rw [if_neg h2, if_neg (by linarith)]
    refine ⟨by linarith, by linarith, .inl ?_⟩
    have e : 0.5 * (2 * t) = t := by ring
    rw [e]
    exact ⟨hc, hs⟩

/-- The quaternion is the one of angle and axis, up to sign. -/
theorem quat_angle_axis {r : Rotation} (h : r.Unit) :
    r.q = angleAxis r.angle r.axis ∨ r.q = ⟨-(angleAxis r.angle r.axis).w, -(angleAxis r.angle r.axis).x, -(angleAxis r.angle r.axis).y, -(angleAxis r.angle r.axis).z⟩ := by
  have hv := vec_axis r
  have hx : r.q.x = r.q.vec.norm * r.axis.x := congrArg V3.x hv
  have hy : r.q.y = r.q.vec.norm * r.axis.y := congrArg V3.y hv
  have hz : r.q.z = r.q.vec.norm * r.axis.z := congrArg V3.z hv
  rcases (angle_spec h).2.2 with ⟨hc, hs⟩ | ⟨hc, hs⟩
  · left
    unfold angleAxis
    rw [hc, hs]
    ext
    · rfl
    · exact hx
    · exact hy
    · exact hz
  · right
    unfold angleAxis
    rw [hc, hs]
    ext
    · simp
    · simp [hx]
    · simp [hy]
    · simp [hz]

/-- C102: the rotation made from the angle and the axis of a rotation acts as that rotation; the axis has length one and the
    angle lies in (-π, π]. -/
theorem C102_angle_axis {r : Rotation} (h : r.Unit) :
    (ofAngleAxis r.angle r.axis).Same r ∧ r.axis.norm = 1 ∧ -Real.pi < r.angle ∧ r.angle ≤ Real.pi := by
  obtain ⟨h1, h2, _⟩ := angle_spec h
  have hu := axis_unit r
  have hn : r.axis.normalized = r.axis := by
    unfold V3.normalized
    rw [hu, V3.norm_of_dot_one hu]
    simp [V3.div]
  refine ⟨?_, V3.norm_of_dot_one hu, h1, h2⟩
  have hsame := (C101_same_action (s := ⟨angleAxis r.angle r.axis⟩) h (angleAxis_unit hu _)).2 (quat_angle_axis h)
  intro v
  unfold ofAngleAxis
  rw [hn]
  exact (hsame v).symm

/-- C102: the rotation made from the Rodrigues vector of a rotation acts as that rotation. -/
theorem C102_to_rodrigues {r : Rotation} (h : r.Unit) : (ofRodrigues r.rodrigues).Same r := by
  have hu := axis_unit r
  have hsame := (C101_same_action (s := ⟨angleAxis r.angle r.axis⟩) h (angleAxis_unit hu _)).2 (quat_angle_axis h)
  intro v
  rw [hsame v]
  unfold rodrigues
  by_cases h0 : r.angle = 0
  · rw [if_pos h0, h0]
    have : ofRodrigues ⟨0, 0, 0⟩ = ⟨⟨1, 0, 0, 0⟩⟩ := by
      unfold ofRodrigues
      rw [if_pos (show (⟨0, 0, 0⟩ : V3).norm = 0 from V3.norm_eq_zero.2 rfl)]
    rw [this]
    unfold angleAxis
    simp
  · rw [if_neg h0]
    have hn : (r.angle • r.axis).norm = |r.angle| := by
      unfold V3.norm
      have : (r.angle • r.axis).dot (r.angle • r.axis) = r.angle ^ 2 := by
        unfold V3.dot at *
        simp only [V3.smul_x, V3.smul_y, V3.smul_z]
        linear_combination r.angle ^ 2 * hu
      rw [this, Real.sqrt_sq_eq_abs]
    unfold ofRodrigues
    rw [hn, if_neg (by simpa using h0)]
    congr 2
    unfold angleAxis V3.div
    rcases lt_or_gt_of_ne h0 with hneg | hpos
    · rw [abs_of_neg hneg]
      have e : 0.5 * -r.angle = -(0.5 * r.angle) := by ring
      rw [e, Real.cos_neg, Real.sin_neg]
      ext <;> simp only [V3.smul_x, V3.smul_y, V3.smul_z] <;> field_simp
    · rw [abs_of_pos hpos]
      ext <;> simp only [V3.smul_x, V3.smul_y, V3.smul_z] <;> field_simp

/-- The norm of the imaginary part. -/
theorem angleAxis_norm {u : V3} (h : u.dot u = 1) (a : ℝ) : (angleAxis a u).vec.norm = |Real.sin (0.5 * a)| := by
  unfold V3.norm
  have : (angleAxis a u).vec.dot (angleAxis a u).vec = Real.sin (0.5 * a) ^ 2 := by
    unfold angleAxis vec V3.dot at *
    simp only
    linear_combination Real.sin (0.5 * a) ^ 2 * h
  rw [this, Real.sqrt_sq_eq_abs]

/-- Angle and axis of the rotation made from them. -/
theorem angle_of_angleAxis {u : V3} (h : u.dot u = 1) {a : ℝ} (h0 : 0 < a) (h1 : a ≤ Real.pi) :
    (⟨angleAxis a u⟩ : Rotation).angle = a ∧ (⟨angleAxis a u⟩ : Rotation).axis = u := by
  have hs : 0 < Real.sin (0.5 * a) := Real.sin_pos_of_pos_of_lt_pi (by linarith) (by linarith [Real.pi_pos])
  have hn := angleAxis_norm h a
  rw [abs_of_pos hs] at hn
  constructor
  · unfold Rotation.angle
    have ht : atan2 (angleAxis a u).vec.norm (angleAxis a u).w = 0.5 * a := by
      rw [hn]
      have := atan2_of (c := 1) (t := 0.5 * a) one_pos (by linarith [Real.pi_pos]) (by linarith [Real.pi_pos])
      rw [one_mul, one_mul] at this
      exact this
    simp only [ht]
    by_cases hp : Real.pi ≤ 2 * (0.5 * a)
    · rw [if_pos hp, if_pos (by linarith)]
      linarith
    · rw [if_neg hp, if_neg (by linarith [Real.pi_pos])]
      linarith
  · unfold Rotation.axis
    simp only
    rw [if_neg (by rw [hn]; exact hs.ne'), hn]
    unfold V3.div angleAxis vec
    ext <;> simp only <;> field_simp

/-- C102: the Rodrigues vector of the rotation made from a vector is that vector, for vectors no longer than π. -/
theorem C102_from_rodrigues {v : V3} (h : v.norm ≤ Real.pi) : (ofRodrigues v).rodrigues = v ∧ (ofRodrigues v).Unit := by
  by_cases h0 : v.norm = 0
  · have hv := V3.norm_eq_zero.1 h0
    subst hv
    unfold ofRodrigues
    rw [if_pos h0]
    refine ⟨?_, unit_identity⟩
    have hn : (⟨1, 0, 0, 0⟩ : Quat).vec.norm = 0 := V3.norm_eq_zero.2 rfl
    have ha : (⟨⟨1, 0, 0, 0⟩⟩ : Rotation).angle = 0 := by
      unfold Rotation.angle
      have : atan2 0 1 = 0 := by
        have := atan2_of (c := 1) (t := 0) one_pos (by linarith [Real.pi_pos]) (by linarith [Real.pi_pos])
        simpa using this
      simp only [hn, this]
      rw [if_neg (show ¬ Real.pi ≤ 2 * 0 by linarith [Real.pi_pos]), if_neg (by linarith [Real.pi_pos])]
      ring
    unfold rodrigues
    rw [if_pos ha]
    rfl
  · have hp : 0 < v.norm := lt_of_le_of_ne (V3.norm_nonneg v) (Ne.symm h0)
    have hv : v ≠ 0 := fun e => h0 (V3.norm_eq_zero.2 e)
    have hu : (v.div v.norm).dot (v.div v.norm) = 1 := by
      rw [← V3.normalized_of_ne hv]
      exact V3.normalized_dot hv
    obtain ⟨ha, hx⟩ := angle_of_angleAxis hu hp h
    unfold ofRodrigues
    rw [if_neg h0]
    refine ⟨?_, angleAxis_unit hu _⟩
    unfold rodrigues
    rw [ha, if_neg hp.ne', hx]
    unfold V3.div
    ext <;> simp only [V3.smul_x, V3.smul_y, V3.smul_z] <;> field_simp

/-- C102: angle and axis given to the constructor are the ones reported, for angles in (0, π]. -/
theorem C102_from_angle_axis {u : V3} (hu : u ≠ 0) {a : ℝ} (h0 : 0 < a) (h1 : a ≤ Real.pi) :
    (ofAngleAxis a u).angle = a ∧ (ofAngleAxis a u).axis = u.div u.norm := by
  rw [← V3.normalized_of_ne hu]
  exact angle_of_angleAxis (V3.normalized_dot hu) h0 h1

/-- A quarter turn about an axis of length two. -/
example : (ofAngleAxis (Real.pi / 2) ⟨0, 0, 2⟩).angle = Real.pi / 2 :=
  (C102_from_angle_axis (by intro e; have := congrArg V3.z e; simp at this) (by linarith [Real.pi_pos]) (by linarith [Real.pi_pos])).1

end Vital.Geo
