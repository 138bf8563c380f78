import Verif.Geo.Basic
/- Rotations (vital/types/rotation.{h,cxx}): properties C100 and C101. -/
namespace Vital.Geo
open Quat

/-- `rotation_<T>`: a quaternion, in general of any norm. -/
-- models: vital/types/rotation.h:153-156 (member q_)
structure Rotation where
  q : Quat

namespace Rotation

-- models: vital/types/rotation.h:59 (default constructor)
def identity : Rotation := ⟨⟨1, 0, 0, 0⟩⟩

-- models: vital/types/rotation.h:62 (constructor from a quaternion)
def ofQuat (q : Quat) : Rotation := ⟨q⟩

/-- Eigen stores the coefficients in the order x, y, z, w, so the vector is read in this order (the comment in the header says w first). -/
-- models: vital/types/rotation.h:70-71 (constructor from a 4-vector)
def ofVec4 (a b c d : ℝ) : Rotation := ⟨⟨d, a, b, c⟩⟩

-- models: vital/types/rotation.cxx:110-116 (constructor from a matrix)
noncomputable def ofMatrix (m : M3) : Rotation := ⟨Quat.ofMatrix m⟩

-- models: vital/types/rotation.cxx:119-126 (conversion to a matrix)
noncomputable def matrix (r : Rotation) : M3 := r.q.toMatrix

-- models: vital/types/rotation.h:129-132 (inverse)
noncomputable def inverse (r : Rotation) : Rotation := ⟨r.q.inverse⟩

-- models: vital/types/rotation.cxx:210-217 (operator*, composition)
noncomputable def compose (a b : Rotation) : Rotation := ⟨a.q.mul b.q⟩

-- models: vital/types/rotation.cxx:221-231 (operator* of a vector)
noncomputable def apply (r : Rotation) (v : V3) : V3 := r.q.rotate v

/-- Holds a unit quaternion. -/
def Unit (r : Rotation) : Prop := r.q.sqNorm = 1

end Rotation

open Rotation

/-! ### C100 -/

theorem unit_identity : Rotation.identity.Unit := by simp [Rotation.Unit, Rotation.identity, sqNorm]

theorem unit_compose {a b : Rotation} (ha : a.Unit) (hb : b.Unit) : (a.compose b).Unit := by
  unfold Rotation.Unit compose sqNorm mul at *
  simp only at *
  have : (a.q.w * b.q.x + a.q.x * b.q.w + a.q.y * b.q.z - a.q.z * b.q.y) * (a.q.w * b.q.x + a.q.x * b.q.w + a.q.y * b.q.z - a.q.z * b.q.y) +
      (a.q.w * b.q.y + a.q.y * b.q.w + a.q.z * b.q.x - a.q.x * b.q.z) * (a.q.w * b.q.y + a.q.y * b.q.w + a.q.z * b.q.x - a.q.x * b.q.z) +
      (a.q.w * b.q.z + a.q.z * b.q.w + a.q.x * b.q.y - a.q.y * b.q.x) * (a.q.w * b.q.z + a.q.z * b.q.w + a.q.x * b.q.y - a.q.y * b.q.x) +
      (a.q.w * b.q.w - a.q.x * b.q.x - a.q.y * b.q.y - a.q.z * b.q.z) * (a.q.w * b.q.w - a.q.x * b.q.x - a.q.y * b.q.y - a.q.z * b.q.z) =
      (a.q.x * a.q.x + a.q.y * a.q.y + a.q.z * a.q.z + a.q.w * a.q.w) * (b.q.x * b.q.x + b.q.y * b.q.y + b.q.z * b.q.z + b.q.w * b.q.w) := by ring
  rw [this, ha, hb, mul_one]

theorem inverse_of_unit {r : Rotation} (h : r.Unit) : r.inverse = ⟨r.q.conj⟩ := by
  unfold Rotation.inverse Quat.inverse
  have h' : r.q.sqNorm = 1 := h
  rw [h']
  simp

theorem unit_inverse {r : Rotation} (h : r.Unit) : r.inverse.Unit := by
  rw [inverse_of_unit h]
  unfold Rotation.Unit sqNorm conj at *
  simp only at *
  linarith

/-- The homogeneous form of the rotation by a quaternion. -/
noncomputable def act (q : Quat) (v : V3) : V3 :=
  ⟨(q.w * q.w + q.x * q.x - q.y * q.y - q.z * q.z) * v.x + 2 * (q.x * q.y - q.w * q.z) * v.y + 2 * (q.x * q.z + q.w * q.y) * v.z,
   2 * (q.x * q.y + q.w * q.z) * v.x + (q.w * q.w - q.x * q.x + q.y * q.y - q.z * q.z) * v.y + 2 * (q.y * q.z - q.w * q.x) * v.z,
   2 * (q.x * q.z - q.w * q.y) * v.x + 2 * (q.y * q.z + q.w * q.x) * v.y + (q.w * q.w - q.x * q.x - q.y * q.y + q.z * q.z) * v.z⟩

theorem rotate_eq_act (q : Quat) (v : V3) : q.rotate v = act q v + (1 - q.sqNorm) • v := by
  unfold rotate act vec V3.cross sqNorm
  ext <;> simp only [V3.add_x, V3.add_y, V3.add_z, V3.smul_x, V3.smul_y, V3.smul_z] <;> ring

theorem apply_eq_act {r : Rotation} (h : r.Unit) (v : V3) : r.apply v = act r.q v := by
  unfold Rotation.apply
  rw [rotate_eq_act]
  have h' : r.q.sqNorm = 1 := h
  rw [h']
  ext <;> simp

theorem act_mul (a b : Quat) (v : V3) : act (a.mul b) v = act a (act b v) := by
  unfold act mul
  ext <;> simp only <;> ring

/-- C100: the product acts as one rotation after the other. -/
theorem C100_compose {a b : Rotation} (ha : a.Unit) (hb : b.Unit) (v : V3) : (a.compose b).apply v = a.apply (b.apply v) := by
  rw [apply_eq_act (unit_compose ha hb), apply_eq_act ha, apply_eq_act hb]
  exact act_mul a.q b.q v

theorem act_conj (q : Quat) (v : V3) : act q.conj (act q v) = (q.sqNorm * q.sqNorm) • v ∧ act q (act q.conj v) = (q.sqNorm * q.sqNorm) • v := by
  constructor
  all_goals
    unfold act conj sqNorm
    ext <;> simp only [V3.smul_x, V3.smul_y, V3.smul_z] <;> ring

theorem act_dot (q : Quat) (a b : V3) : (act q a).dot (act q b) = q.sqNorm * q.sqNorm * a.dot b := by
  unfold act sqNorm V3.dot
  ring

theorem act_cross (q : Quat) (a b : V3) : (act q a).cross (act q b) = q.sqNorm • act q (a.cross b) := by
  unfold act sqNorm V3.cross
  ext <;> simp only [V3.smul_x, V3.smul_y, V3.smul_z] <;> ring

theorem one_smul (v : V3) : (1 : ℝ) • v = v := by ext <;> simp

/-- C100: the inverse undoes the rotation. -/
theorem C100_inverse {r : Rotation} (h : r.Unit) (v : V3) : r.inverse.apply (r.apply v) = v ∧ r.apply (r.inverse.apply v) = v := by
  have h' : r.q.sqNorm = 1 := h
  have := act_conj r.q v
  rw [h', mul_one, one_smul] at this
  rw [apply_eq_act (unit_inverse h), apply_eq_act h, inverse_of_unit h, apply_eq_act h, apply_eq_act (r := ⟨r.q.conj⟩) (by rw [← inverse_of_unit h]; exact unit_inverse h)]
  exact this

/-- The matrix does to a vector what the rotation does, whatever the norm of the quaternion. -/
theorem C100_matrix (r : Rotation) (v : V3) : r.matrix.mulVec v = r.apply v := by
  unfold Rotation.matrix Rotation.apply toMatrix rotate M3.mulVec V3.dot vec V3.cross
  ext <;> simp only [V3.add_x, V3.add_y, V3.add_z, V3.smul_x, V3.smul_y, V3.smul_z] <;> ring

/-- C100: rotations are isometries: they keep dot products (hence lengths and angles) and cross products (orientation), and are
    linear. -/
theorem C100_isometry {r : Rotation} (h : r.Unit) (a b : V3) (s : ℝ) :
    (r.apply a).dot (r.apply b) = a.dot b ∧ (r.apply a).cross (r.apply b) = r.apply (a.cross b) ∧
    r.apply (a + b) = r.apply a + r.apply b ∧ r.apply (s • a) = s • r.apply a := by
  have h' : r.q.sqNorm = 1 := h
  refine ⟨?_, ?_, ?_, ?_⟩
  · rw [apply_eq_act h, apply_eq_act h, act_dot, h', mul_one, one_mul]
  · rw [apply_eq_act h, apply_eq_act h, apply_eq_act h, act_cross, h', one_smul]
  · unfold Rotation.apply rotate vec V3.cross
    ext <;> simp only [V3.add_x, V3.add_y, V3.add_z, V3.smul_x, V3.smul_y, V3.smul_z] <;> ring
  · unfold Rotation.apply rotate vec V3.cross
    ext <;> simp only [V3.add_x, V3.add_y, V3.add_z, V3.smul_x, V3.smul_y, V3.smul_z] <;> ring

/-- The matrix of a rotation is orthonormal with determinant one. -/
theorem matrix_isRotation {r : Rotation} (h : r.Unit) : r.matrix.IsRotation := by
  have h' : r.q.sqNorm = 1 := h
  unfold sqNorm at h'
  have hw : r.q.w * r.q.w = 1 - r.q.x * r.q.x - r.q.y * r.q.y - r.q.z * r.q.z := by linarith
  constructor
  · unfold Rotation.matrix toMatrix M3.mul M3.transpose M3.one V3.dot
    ext <;> simp only
    · linear_combination 4 * (r.q.y * r.q.y + r.q.z * r.q.z) * h'
    · linear_combination (-4) * (r.q.x * r.q.y) * h'
    · linear_combination (-4) * (r.q.x * r.q.z) * h'
    · linear_combination (-4) * (r.q.x * r.q.y) * h'
    · linear_combination 4 * (r.q.x * r.q.x + r.q.z * r.q.z) * h'
    · linear_combination (-4) * (r.q.y * r.q.z) * h'
    · linear_combination (-4) * (r.q.x * r.q.z) * h'
    · linear_combination (-4) * (r.q.y * r.q.z) * h'
    · linear_combination 4 * (r.q.x * r.q.x + r.q.y * r.q.y) * h'
  · unfold Rotation.matrix toMatrix M3.det V3.dot V3.cross
    simp only
    linear_combination (4 * (r.q.x * r.q.x + r.q.y * r.q.y + r.q.z * r.q.z)) * h'

/-- C100: rotations form a group under composition (quaternions are compared exactly). -/
theorem C100_group (a b c : Rotation) : (a.compose b).compose c = a.compose (b.compose c) ∧ identity.compose a = a ∧ a.compose identity = a ∧
    (a.Unit → a.inverse.compose a = identity ∧ a.compose a.inverse = identity) := by
  refine ⟨?_, ?_, ?_, ?_⟩
  · unfold compose mul
    congr 1
    ext <;> simp only <;> ring
  · unfold compose mul identity
    congr 1
    ext <;> simp only <;> ring
  · unfold compose mul identity
    congr 1
    ext <;> simp only <;> ring
  · intro h
    rw [inverse_of_unit h]
    have h' : a.q.sqNorm = 1 := h
    unfold compose mul identity conj
    constructor
    · congr 1
      ext <;> simp only
      · unfold sqNorm at h'; linarith
      all_goals ring
    · congr 1
      ext <;> simp only
      · unfold sqNorm at h'; linarith
      all_goals ring

/-- The full claim, for the rotations made by any constructor. -/
def C100_statement : Prop := ∀ (a b : Rotation) (v : V3), (a.compose b).apply v = a.apply (b.apply v)

/-- It is false: the constructors from a quaternion or a 4-vector do not normalize, and the product of two quaternions of norm
    other than one acts differently from the two in turn. -/
theorem C100_refuted : ¬ C100_statement := by
  intro h
  have := h ⟨⟨0, 0, 0, 2⟩⟩ ⟨⟨0, 0, 0, 2⟩⟩ ⟨1, 0, 0⟩
  have := congrArg V3.x this
  simp [compose, apply, mul, rotate, vec, V3.cross] at this
  norm_num at this

/-- A rotation by 90 degrees about the z axis: not the identity, and its square is a half turn. -/
noncomputable example : ∃ r : Rotation, r.Unit ∧ r.apply ⟨1, 0, 0⟩ = ⟨0, 1, 0⟩ ∧ (r.compose r).apply ⟨1, 0, 0⟩ = ⟨-1, 0, 0⟩ := by
  have hs : Real.sqrt (1 / 2) * Real.sqrt (1 / 2) = 1 / 2 := Real.mul_self_sqrt (by norm_num)
  have hu : (⟨⟨Real.sqrt (1 / 2), 0, 0, Real.sqrt (1 / 2)⟩⟩ : Rotation).Unit := by
    unfold Rotation.Unit sqNorm
    simp only
    linarith
  have h1 : (⟨⟨Real.sqrt (1 / 2), 0, 0, Real.sqrt (1 / 2)⟩⟩ : Rotation).apply ⟨1, 0, 0⟩ = ⟨0, 1, 0⟩ := by
    unfold apply rotate vec V3.cross
    ext <;> simp only [V3.add_x, V3.add_y, V3.add_z, V3.smul_x, V3.smul_y, V3.smul_z] <;> linarith
  have h2 : (⟨⟨Real.sqrt (1 / 2), 0, 0, Real.sqrt (1 / 2)⟩⟩ : Rotation).apply ⟨0, 1, 0⟩ = ⟨-1, 0, 0⟩ := by
    unfold apply rotate vec V3.cross
    ext <;> simp only [V3.add_x, V3.add_y, V3.add_z, V3.smul_x, V3.smul_y, V3.smul_z] <;> linarith
  refine ⟨_, hu, h1, ?_⟩
  rw [C100_compose hu hu, h1, h2]

/-! ### C101: matrices -/

/-- The relations between the entries of a rotation matrix. -/
structure M3.Rel (m : M3) : Prop where
  rr00 : m.r0.dot m.r0 = 1
  rr11 : m.r1.dot m.r1 = 1
  rr22 : m.r2.dot m.r2 = 1
  rr01 : m.r0.dot m.r1 = 0
  rr02 : m.r0.dot m.r2 = 0
  rr12 : m.r1.dot m.r2 = 0
  c0 : m.r0 = m.r1.cross m.r2
  c1 : m.r1 = m.r2.cross m.r0
  c2 : m.r2 = m.r0.cross m.r1

theorem cross_unique {a b c : V3} (ha : a.dot a = 1) (hb : b.dot b = 1) (hc : c.dot c = 1) (hbc : b.dot c = 0) (hd : a.dot (b.cross c) = 1) : a = b.cross c := by
  have h : (a - b.cross c).dot (a - b.cross c) = 0 := by
    unfold V3.dot V3.cross at *
    simp only [V3.sub_x, V3.sub_y, V3.sub_z] at *
    linear_combination ha - 2 * hd + (c.x * c.x + c.y * c.y + c.z * c.z) * hb + hc - (b.x * c.x + b.y * c.y + b.z * c.z) * hbc
  have := V3.dot_self_eq_zero h
  ext
  · have := congrArg V3.x this; simp only [V3.sub_x, V3.zero_x] at this; linarith
  · have := congrArg V3.y this; simp only [V3.sub_y, V3.zero_y] at this; linarith
  · have := congrArg V3.z this; simp only [V3.sub_z, V3.zero_z] at this; linarith

theorem rel_of_isRotation {m : M3} (h : m.IsRotation) : m.Rel := by
  have ho := h.orth
  have hd := h.det
  unfold M3.mul M3.transpose M3.one at ho
  simp only [M3.mk.injEq, V3.mk.injEq] at ho
  obtain ⟨⟨h00, h01, h02⟩, ⟨_, h11, h12⟩, ⟨_, _, h22⟩⟩ := ho
  unfold M3.det at hd
  refine ⟨h00, h11, h22, h01, h02, h12, cross_unique h00 h11 h22 h12 hd, cross_unique h11 h22 h00 ?_ ?_, cross_unique h22 h00 h11 h01 ?_⟩
  · have h02 : m.r0.dot m.r2 = 0 := h02
    unfold V3.dot at *; linarith
  · unfold V3.dot V3.cross at *; simp only at *; linarith
  · unfold V3.dot V3.cross at *; simp only at *; linarith

end Vital.Geo
