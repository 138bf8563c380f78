import Mathlib.Analysis.Real.Sqrt
import Mathlib.Tactic.LinearCombination
import Mathlib.Tactic.FieldSimp
import Mathlib.Tactic.Positivity
import Mathlib.Tactic.Linarith
/-
  Vectors, matrices and quaternions as Eigen defines them, over the real numbers.

  All geometry modules work in exact arithmetic: `double` and `float` are replaced by ℝ, rounding, overflow and NaN are not modelled.
-/
namespace Vital.Geo

/-- A vector of two reals. -/
-- models: vital/types/vector.h:47 (vector_2d)
@[ext] structure V2 where
  x : ℝ
  y : ℝ

/-- A vector of three reals. -/
-- models: vital/types/vector.h:49 (vector_3d)
@[ext] structure V3 where
  x : ℝ
  y : ℝ
  z : ℝ

namespace V3

noncomputable instance : Add V3 := ⟨fun a b => ⟨a.x + b.x, a.y + b.y, a.z + b.z⟩⟩
noncomputable instance : Sub V3 := ⟨fun a b => ⟨a.x - b.x, a.y - b.y, a.z - b.z⟩⟩
noncomputable instance : Neg V3 := ⟨fun a => ⟨-a.x, -a.y, -a.z⟩⟩
noncomputable instance : SMul ℝ V3 := ⟨fun s a => ⟨s * a.x, s * a.y, s * a.z⟩⟩
instance : Zero V3 := ⟨⟨0, 0, 0⟩⟩

/-- `cross` -/
noncomputable def cross (a b : V3) : V3 := ⟨a.y * b.z - a.z * b.y, a.z * b.x - a.x * b.z, a.x * b.y - a.y * b.x⟩

/-- `dot` -/
noncomputable def dot (a b : V3) : ℝ := a.x * b.x + a.y * b.y + a.z * b.z

/-- `norm` -/
noncomputable def norm (a : V3) : ℝ := Real.sqrt (a.dot a)

@[simp] theorem add_x (a b : V3) : (a + b).x = a.x + b.x := rfl
@[simp] theorem add_y (a b : V3) : (a + b).y = a.y + b.y := rfl
@[simp] theorem add_z (a b : V3) : (a + b).z = a.z + b.z := rfl
@[simp] theorem sub_x (a b : V3) : (a - b).x = a.x - b.x := rfl
@[simp] theorem sub_y (a b : V3) : (a - b).y = a.y - b.y := rfl
@[simp] theorem sub_z (a b : V3) : (a - b).z = a.z - b.z := rfl
@[simp] theorem neg_x (a : V3) : (-a).x = -a.x := rfl
@[simp] theorem neg_y (a : V3) : (-a).y = -a.y := rfl
@[simp] theorem neg_z (a : V3) : (-a).z = -a.z := rfl
@[simp] theorem smul_x (s : ℝ) (a : V3) : (s • a).x = s * a.x := rfl
@[simp] theorem smul_y (s : ℝ) (a : V3) : (s • a).y = s * a.y := rfl
@[simp] theorem smul_z (s : ℝ) (a : V3) : (s • a).z = s * a.z := rfl
@[simp] theorem zero_x : (0 : V3).x = 0 := rfl
@[simp] theorem zero_y : (0 : V3).y = 0 := rfl
@[simp] theorem zero_z : (0 : V3).z = 0 := rfl

theorem dot_self_nonneg (a : V3) : 0 ≤ a.dot a := by unfold dot; nlinarith [sq_nonneg a.x, sq_nonneg a.y, sq_nonneg a.z]
theorem norm_nonneg (a : V3) : 0 ≤ a.norm := Real.sqrt_nonneg _
theorem norm_sq (a : V3) : a.norm * a.norm = a.dot a := Real.mul_self_sqrt a.dot_self_nonneg
theorem norm_pow (a : V3) : a.norm ^ 2 = a.dot a := by rw [pow_two, norm_sq]

theorem dot_self_eq_zero {a : V3} (h : a.dot a = 0) : a = 0 := by
  unfold dot at h
  have hx : a.x ^ 2 ≤ 0 := by nlinarith [sq_nonneg a.x, sq_nonneg a.y, sq_nonneg a.z]
  have hy : a.y ^ 2 ≤ 0 := by nlinarith [sq_nonneg a.x, sq_nonneg a.y, sq_nonneg a.z]
  have hz : a.z ^ 2 ≤ 0 := by nlinarith [sq_nonneg a.x, sq_nonneg a.y, sq_nonneg a.z]
  ext
  · exact pow_eq_zero_iff two_ne_zero |>.1 (le_antisymm hx (sq_nonneg _))
  · exact pow_eq_zero_iff two_ne_zero |>.1 (le_antisymm hy (sq_nonneg _))
  · exact pow_eq_zero_iff two_ne_zero |>.1 (le_antisymm hz (sq_nonneg _))

theorem norm_eq_zero {a : V3} : a.norm = 0 ↔ a = 0 := by
  constructor
  · intro h
    apply dot_self_eq_zero
    rw [← norm_sq, h, mul_zero]
  · rintro rfl
    simp [norm, dot]

theorem norm_pos {a : V3} (h : a ≠ 0) : 0 < a.norm := lt_of_le_of_ne (norm_nonneg a) (fun e => h (norm_eq_zero.1 e.symm))

/-- Division by a scalar (`operator/`). -/
noncomputable def div (a : V3) (s : ℝ) : V3 := ⟨a.x / s, a.y / s, a.z / s⟩

/-- `normalized()`: the vector itself when its squared norm is not positive. -/
-- models: Eigen/src/Core/Dot.h (MatrixBase::normalized)
noncomputable def normalized (a : V3) : V3 := if 0 < a.dot a then a.div a.norm else a

theorem normalized_of_ne {a : V3} (h : a ≠ 0) : a.normalized = a.div a.norm := by
  have : 0 < a.dot a := lt_of_le_of_ne a.dot_self_nonneg (fun e => h (dot_self_eq_zero e.symm))
  simp [normalized, this]

theorem normalized_dot {a : V3} (h : a ≠ 0) : a.normalized.dot a.normalized = 1 := by
  rw [normalized_of_ne h]
  have hp := norm_pos h
  have hs := norm_pow a
  simp only [div, dot] at *
  field_simp
  linarith

theorem norm_of_dot_one {a : V3} (h : a.dot a = 1) : a.norm = 1 := by simp [norm, h]

end V3

/-- A 3x3 matrix, by its rows. -/
-- models: vital/types/matrix.h (matrix_3x3d)
@[ext] structure M3 where
  r0 : V3
  r1 : V3
  r2 : V3

namespace M3

noncomputable def mulVec (m : M3) (v : V3) : V3 := ⟨m.r0.dot v, m.r1.dot v, m.r2.dot v⟩
def transpose (m : M3) : M3 := ⟨⟨m.r0.x, m.r1.x, m.r2.x⟩, ⟨m.r0.y, m.r1.y, m.r2.y⟩, ⟨m.r0.z, m.r1.z, m.r2.z⟩⟩
noncomputable def mul (a b : M3) : M3 :=
  ⟨⟨a.r0.dot b.transpose.r0, a.r0.dot b.transpose.r1, a.r0.dot b.transpose.r2⟩,
   ⟨a.r1.dot b.transpose.r0, a.r1.dot b.transpose.r1, a.r1.dot b.transpose.r2⟩,
   ⟨a.r2.dot b.transpose.r0, a.r2.dot b.transpose.r1, a.r2.dot b.transpose.r2⟩⟩
def one : M3 := ⟨⟨1, 0, 0⟩, ⟨0, 1, 0⟩, ⟨0, 0, 1⟩⟩
noncomputable def det (m : M3) : ℝ := m.r0.dot (m.r1.cross m.r2)
noncomputable def scale (s : ℝ) (m : M3) : M3 := ⟨s • m.r0, s • m.r1, s • m.r2⟩

/-- The matrices of rotations: orthonormal with determinant +1. -/
structure IsRotation (m : M3) : Prop where
  orth : mul m m.transpose = one
  det : m.det = 1

end M3

/-- A quaternion `w + x i + y j + z k`. -/
-- models: Eigen::Quaternion (constructor argument order w, x, y, z)
@[ext] structure Quat where
  w : ℝ
  x : ℝ
  y : ℝ
  z : ℝ

namespace Quat

/-- The imaginary part. -/
def vec (q : Quat) : V3 := ⟨q.x, q.y, q.z⟩

-- models: Eigen/src/Geometry/Quaternion.h (quat_product)
noncomputable def mul (a b : Quat) : Quat :=
  ⟨a.w * b.w - a.x * b.x - a.y * b.y - a.z * b.z,
   a.w * b.x + a.x * b.w + a.y * b.z - a.z * b.y,
   a.w * b.y + a.y * b.w + a.z * b.x - a.x * b.z,
   a.w * b.z + a.z * b.w + a.x * b.y - a.y * b.x⟩

-- models: Eigen/src/Geometry/Quaternion.h (squaredNorm)
noncomputable def sqNorm (q : Quat) : ℝ := q.x * q.x + q.y * q.y + q.z * q.z + q.w * q.w

noncomputable def conj (q : Quat) : Quat := ⟨q.w, -q.x, -q.y, -q.z⟩

-- models: Eigen/src/Geometry/Quaternion.h (inverse)
noncomputable def inverse (q : Quat) : Quat :=
  if 0 < q.sqNorm then ⟨q.conj.w / q.sqNorm, q.conj.x / q.sqNorm, q.conj.y / q.sqNorm, q.conj.z / q.sqNorm⟩ else ⟨0, 0, 0, 0⟩

-- models: Eigen/src/Geometry/Quaternion.h (_transformVector)
noncomputable def rotate (q : Quat) (v : V3) : V3 :=
  let uv := q.vec.cross v
  let uv := uv + uv
  v + q.w • uv + q.vec.cross uv

-- models: Eigen/src/Geometry/Quaternion.h (toRotationMatrix)
noncomputable def toMatrix (q : Quat) : M3 :=
  let tx := 2 * q.x
  let ty := 2 * q.y
  let tz := 2 * q.z
  let twx := tx * q.w
  let twy := ty * q.w
  let twz := tz * q.w
  let txx := tx * q.x
  let txy := ty * q.x
  let txz := tz * q.x
  let tyy := ty * q.y
  let tyz := tz * q.y
  let tzz := tz * q.z
  ⟨⟨1 - (tyy + tzz), txy - twz, txz + twy⟩,
   ⟨txy + twz, 1 - (txx + tzz), tyz - twx⟩,
   ⟨txz - twy, tyz + twx, 1 - (txx + tyy)⟩⟩

/-- `Quaternion( matrix )`. -/
-- models: Eigen/src/Geometry/Quaternion.h (quaternionbase_assign_impl for 3x3 matrices)
noncomputable def ofMatrix (m : M3) : Quat :=
  if 0 < m.r0.x + m.r1.y + m.r2.z then
    let t := Real.sqrt (m.r0.x + m.r1.y + m.r2.z + 1)
    let s := 0.5 / t
    ⟨0.5 * t, (m.r2.y - m.r1.z) * s, (m.r0.z - m.r2.x) * s, (m.r1.x - m.r0.y) * s⟩
  else if m.r0.x < m.r1.y then
    if m.r1.y < m.r2.z then
      let t := Real.sqrt (m.r2.z - m.r0.x - m.r1.y + 1)
      let s := 0.5 / t
      ⟨(m.r1.x - m.r0.y) * s, (m.r0.z + m.r2.x) * s, (m.r1.z + m.r2.y) * s, 0.5 * t⟩
    else
      let t := Real.sqrt (m.r1.y - m.r2.z - m.r0.x + 1)
      let s := 0.5 / t
      ⟨(m.r0.z - m.r2.x) * s, (m.r1.x + m.r0.y) * s, 0.5 * t, (m.r2.y + m.r1.z) * s⟩
  else
    if m.r0.x < m.r2.z then
      let t := Real.sqrt (m.r2.z - m.r0.x - m.r1.y + 1)
      let s := 0.5 / t
      ⟨(m.r1.x - m.r0.y) * s, (m.r0.z + m.r2.x) * s, (m.r1.z + m.r2.y) * s, 0.5 * t⟩
    else
      let t := Real.sqrt (m.r0.x - m.r1.y - m.r2.z + 1)
      let s := 0.5 / t
      ⟨(m.r2.y - m.r1.z) * s, 0.5 * t, (m.r1.x + m.r0.y) * s, (m.r2.x + m.r0.z) * s⟩

def one : Quat := ⟨1, 0, 0, 0⟩

end Quat

end Vital.Geo
