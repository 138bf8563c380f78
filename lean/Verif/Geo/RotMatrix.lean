import Verif.Geo.Rotation
/- Property C101: rotations and matrices. -/
namespace Vital.Geo
open Quat Rotation

/-- The symmetric matrix of the products of the quaternion's components (times four), in terms of the rotation matrix, has rank
    one. -/
structure M3.Minors (m : M3) : Prop where
  sq_wx : (1 + m.r0.x + m.r1.y + m.r2.z) * (1 + m.r0.x - m.r1.y - m.r2.z) = (m.r2.y - m.r1.z) * (m.r2.y - m.r1.z)
  mx_w_xy : (1 + m.r0.x + m.r1.y + m.r2.z) * (m.r0.y + m.r1.x) = (m.r2.y - m.r1.z) * (m.r0.z - m.r2.x)
  mx_w_xz : (1 + m.r0.x + m.r1.y + m.r2.z) * (m.r0.z + m.r2.x) = (m.r2.y - m.r1.z) * (m.r1.x - m.r0.y)
  sq_wy : (1 + m.r0.x + m.r1.y + m.r2.z) * (1 + m.r1.y - m.r0.x - m.r2.z) = (m.r0.z - m.r2.x) * (m.r0.z - m.r2.x)
  mx_w_yz : (1 + m.r0.x + m.r1.y + m.r2.z) * (m.r1.z + m.r2.y) = (m.r0.z - m.r2.x) * (m.r1.x - m.r0.y)
  sq_wz : (1 + m.r0.x + m.r1.y + m.r2.z) * (1 + m.r2.z - m.r0.x - m.r1.y) = (m.r1.x - m.r0.y) * (m.r1.x - m.r0.y)
  mx_x_wy : (1 + m.r0.x - m.r1.y - m.r2.z) * (m.r0.z - m.r2.x) = (m.r2.y - m.r1.z) * (m.r0.y + m.r1.x)
  mx_x_wz : (1 + m.r0.x - m.r1.y - m.r2.z) * (m.r1.x - m.r0.y) = (m.r2.y - m.r1.z) * (m.r0.z + m.r2.x)
  sq_xy : (1 + m.r0.x - m.r1.y - m.r2.z) * (1 + m.r1.y - m.r0.x - m.r2.z) = (m.r0.y + m.r1.x) * (m.r0.y + m.r1.x)
  mx_x_yz : (1 + m.r0.x - m.r1.y - m.r2.z) * (m.r1.z + m.r2.y) = (m.r0.y + m.r1.x) * (m.r0.z + m.r2.x)
  sq_xz : (1 + m.r0.x - m.r1.y - m.r2.z) * (1 + m.r2.z - m.r0.x - m.r1.y) = (m.r0.z + m.r2.x) * (m.r0.z + m.r2.x)
  mx_y_wx : (1 + m.r1.y - m.r0.x - m.r2.z) * (m.r2.y - m.r1.z) = (m.r0.z - m.r2.x) * (m.r0.y + m.r1.x)
  mx_y_wz : (1 + m.r1.y - m.r0.x - m.r2.z) * (m.r1.x - m.r0.y) = (m.r0.z - m.r2.x) * (m.r1.z + m.r2.y)
  mx_y_xz : (1 + m.r1.y - m.r0.x - m.r2.z) * (m.r0.z + m.r2.x) = (m.r0.y + m.r1.x) * (m.r1.z + m.r2.y)
  sq_yz : (1 + m.r1.y - m.r0.x - m.r2.z) * (1 + m.r2.z - m.r0.x - m.r1.y) = (m.r1.z + m.r2.y) * (m.r1.z + m.r2.y)
  mx_z_wx : (1 + m.r2.z - m.r0.x - m.r1.y) * (m.r2.y - m.r1.z) = (m.r1.x - m.r0.y) * (m.r0.z + m.r2.x)
  mx_z_wy : (1 + m.r2.z - m.r0.x - m.r1.y) * (m.r0.z - m.r2.x) = (m.r1.x - m.r0.y) * (m.r1.z + m.r2.y)
  mx_z_xy : (1 + m.r2.z - m.r0.x - m.r1.y) * (m.r0.y + m.r1.x) = (m.r0.z + m.r2.x) * (m.r1.z + m.r2.y)

theorem minors_of_rel {m : M3} (h : m.Rel) : m.Minors := by
  obtain ⟨r00, r11, r22, r01, r02, r12, c0, c1, c2⟩ := h
  have ca := congrArg V3.x c0
  have cb := congrArg V3.y c0
  have cc := congrArg V3.z c0
  have cd := congrArg V3.x c1
  have ce := congrArg V3.y c1
  have cf := congrArg V3.z c1
  have cg := congrArg V3.x c2
  have ch := congrArg V3.y c2
  have ci := congrArg V3.z c2
  clear c0 c1 c2
  unfold V3.dot at *
  simp only [V3.cross] at *
  have k00 : m.r0.x * m.r0.x + m.r1.x * m.r1.x + m.r2.x * m.r2.x = 1 := by
    linear_combination m.r1.x * cd + m.r2.x * cg + r00 - m.r0.y * cb - m.r0.z * cc
  have k11 : m.r0.y * m.r0.y + m.r1.y * m.r1.y + m.r2.y * m.r2.y = 1 := by
    linear_combination m.r1.y * ce + m.r2.y * ch + r00 - m.r0.x * ca - m.r0.z * cc
  have k22 : m.r0.z * m.r0.z + m.r1.z * m.r1.z + m.r2.z * m.r2.z = 1 := by
    linear_combination m.r1.z * cf + m.r2.z * ci + r00 - m.r0.x * ca - m.r0.y * cb
  have k01 : m.r0.x * m.r0.y + m.r1.x * m.r1.y + m.r2.x * m.r2.y = 0 := by
    linear_combination m.r0.x * cb + m.r1.x * ce + m.r2.x * ch
  have k02 : m.r0.x * m.r0.z + m.r1.x * m.r1.z + m.r2.x * m.r2.z = 0 := by
    linear_combination m.r0.x * cc + m.r1.x * cf + m.r2.x * ci
  have k12 : m.r0.y * m.r0.z + m.r1.y * m.r1.z + m.r2.y * m.r2.z = 0 := by
    linear_combination m.r0.y * cc + m.r1.y * cf + m.r2.y * ci
  constructor
  · linear_combination (-1) * r11 + (-1) * r22 + (1) * k00 + (2) * ca
  · linear_combination (1) * r01 + (1) * k01 + (1) * cb + (1) * cd
  · linear_combination (1) * r02 + (1) * k02 + (1) * cc + (1) * cg
  · linear_combination (-1) * r00 + (-1) * r22 + (1) * k11 + (2) * ce
  · linear_combination (1) * r12 + (1) * k12 + (1) * cf + (1) * ch
  · linear_combination (1) * r22 + (-1) * k00 + (-1) * k11 + (2) * ci
  · linear_combination (-1) * r02 + (1) * k02 + (1) * cc + (-1) * cg
  · linear_combination (1) * r01 + (-1) * k01 + (-1) * cb + (1) * cd
  · linear_combination (1) * r22 + (-1) * k00 + (-1) * k11 + (-2) * ci
  · linear_combination (-1) * r12 + (-1) * k12 + (1) * cf + (1) * ch
  · linear_combination (-1) * r00 + (-1) * r22 + (1) * k11 + (-2) * ce
  · linear_combination (1) * r12 + (-1) * k12 + (-1) * cf + (1) * ch
  · linear_combination (-1) * r01 + (1) * k01 + (-1) * cb + (1) * cd
  · linear_combination (-1) * r02 + (-1) * k02 + (1) * cc + (1) * cg
  · linear_combination (-1) * r11 + (-1) * r22 + (1) * k00 + (-2) * ca
  · linear_combination (-1) * r12 + (1) * k12 + (-1) * cf + (1) * ch
  · linear_combination (1) * r02 + (-1) * k02 + (1) * cc + (-1) * cg
  · linear_combination (-1) * r01 + (-1) * k01 + (1) * cb + (1) * cd

/-- The products of the components of `q` are those of the quaternion of the matrix `m`. -/
structure Outer (m : M3) (q : Quat) : Prop where
  ww : 4 * (q.w * q.w) = 1 + m.r0.x + m.r1.y + m.r2.z
  xx : 4 * (q.x * q.x) = 1 + m.r0.x - m.r1.y - m.r2.z
  yy : 4 * (q.y * q.y) = 1 + m.r1.y - m.r0.x - m.r2.z
  zz : 4 * (q.z * q.z) = 1 + m.r2.z - m.r0.x - m.r1.y
  wx : 4 * (q.w * q.x) = m.r2.y - m.r1.z
  wy : 4 * (q.w * q.y) = m.r0.z - m.r2.x
  wz : 4 * (q.w * q.z) = m.r1.x - m.r0.y
  xy : 4 * (q.x * q.y) = m.r0.y + m.r1.x
  xz : 4 * (q.x * q.z) = m.r0.z + m.r2.x
  yz : 4 * (q.y * q.z) = m.r1.z + m.r2.y

theorem outer_matrix {m : M3} {q : Quat} (h : Outer m q) : q.toMatrix = m ∧ q.sqNorm = 1 := by
  obtain ⟨ww, xx, yy, zz, wx, wy, wz, xy, xz, yz⟩ := h
  constructor
  · unfold toMatrix
    ext <;> simp only <;> linarith
  · unfold sqNorm
    linarith

/-- A quaternion of norm one belongs to its matrix. -/
theorem outer_of_unit {q : Quat} (h : q.sqNorm = 1) : Outer q.toMatrix q := by
  unfold sqNorm at h
  unfold toMatrix
  constructor <;> simp only <;> linarith

theorem outer_pivot_w {m : M3} (h : m.Minors) {t : ℝ} (ht : 0 < t) (hs : t * t = 1 + m.r0.x + m.r1.y + m.r2.z) :
    Outer m ⟨0.5 * t, (m.r2.y - m.r1.z) * (0.5 / t), (m.r0.z - m.r2.x) * (0.5 / t), (m.r1.x - m.r0.y) * (0.5 / t)⟩ := by
  have hst : (0.5 / t) * t = 0.5 := by field_simp
  generalize 0.5 / t = s at hst
  have hss : s * s * (t * t) = 0.25 := by
    have : s * s * (t * t) = (s * t) * (s * t) := by ring
    rw [this, hst]; norm_num
  constructor <;> simp only
  · linear_combination hs
  · linear_combination (-4) * s * s * h.sq_wx - 4 * s * s * (1 + m.r0.x - m.r1.y - m.r2.z) * hs + 4 * (1 + m.r0.x - m.r1.y - m.r2.z) * hss
  · linear_combination (-4) * s * s * h.sq_wy - 4 * s * s * (1 + m.r1.y - m.r0.x - m.r2.z) * hs + 4 * (1 + m.r1.y - m.r0.x - m.r2.z) * hss
  · linear_combination (-4) * s * s * h.sq_wz - 4 * s * s * (1 + m.r2.z - m.r0.x - m.r1.y) * hs + 4 * (1 + m.r2.z - m.r0.x - m.r1.y) * hss
  · linear_combination 2 * (m.r2.y - m.r1.z) * hst
  · linear_combination 2 * (m.r0.z - m.r2.x) * hst
  · linear_combination 2 * (m.r1.x - m.r0.y) * hst
  · linear_combination (-4) * s * s * h.mx_w_xy - 4 * s * s * (m.r0.y + m.r1.x) * hs + 4 * (m.r0.y + m.r1.x) * hss
  · linear_combination (-4) * s * s * h.mx_w_xz - 4 * s * s * (m.r0.z + m.r2.x) * hs + 4 * (m.r0.z + m.r2.x) * hss
  · linear_combination (-4) * s * s * h.mx_w_yz - 4 * s * s * (m.r1.z + m.r2.y) * hs + 4 * (m.r1.z + m.r2.y) * hss

theorem outer_pivot_x {m : M3} (h : m.Minors) {t : ℝ} (ht : 0 < t) (hs : t * t = 1 + m.r0.x - m.r1.y - m.r2.z) :
    Outer m ⟨(m.r2.y - m.r1.z) * (0.5 / t), 0.5 * t, (m.r0.y + m.r1.x) * (0.5 / t), (m.r0.z + m.r2.x) * (0.5 / t)⟩ := by
  have hst : (0.5 / t) * t = 0.5 := by field_simp
  generalize 0.5 / t = s at hst
  have hss : s * s * (t * t) = 0.25 := by
    have : s * s * (t * t) = (s * t) * (s * t) := by ring
    rw [this, hst]; norm_num
  constructor <;> simp only
  · linear_combination (-4) * s * s * h.sq_wx - 4 * s * s * (1 + m.r0.x + m.r1.y + m.r2.z) * hs + 4 * (1 + m.r0.x + m.r1.y + m.r2.z) * hss
  · linear_combination hs
  · linear_combination (-4) * s * s * h.sq_xy - 4 * s * s * (1 + m.r1.y - m.r0.x - m.r2.z) * hs + 4 * (1 + m.r1.y - m.r0.x - m.r2.z) * hss
  · linear_combination (-4) * s * s * h.sq_xz - 4 * s * s * (1 + m.r2.z - m.r0.x - m.r1.y) * hs + 4 * (1 + m.r2.z - m.r0.x - m.r1.y) * hss
  · linear_combination 2 * (m.r2.y - m.r1.z) * hst
  · linear_combination (-4) * s * s * h.mx_x_wy - 4 * s * s * (m.r0.z - m.r2.x) * hs + 4 * (m.r0.z - m.r2.x) * hss
  · linear_combination (-4) * s * s * h.mx_x_wz - 4 * s * s * (m.r1.x - m.r0.y) * hs + 4 * (m.r1.x - m.r0.y) * hss
  · linear_combination 2 * (m.r0.y + m.r1.x) * hst
  · linear_combination 2 * (m.r0.z + m.r2.x) * hst
  · linear_combination (-4) * s * s * h.mx_x_yz - 4 * s * s * (m.r1.z + m.r2.y) * hs + 4 * (m.r1.z + m.r2.y) * hss

theorem outer_pivot_y {m : M3} (h : m.Minors) {t : ℝ} (ht : 0 < t) (hs : t * t = 1 + m.r1.y - m.r0.x - m.r2.z) :
    Outer m ⟨(m.r0.z - m.r2.x) * (0.5 / t), (m.r0.y + m.r1.x) * (0.5 / t), 0.5 * t, (m.r1.z + m.r2.y) * (0.5 / t)⟩ := by
  have hst : (0.5 / t) * t = 0.5 := by field_simp
  generalize 0.5 / t = s at hst
  have hss : s * s * (t * t) = 0.25 := by
    have : s * s * (t * t) = (s * t) * (s * t) := by ring
    rw [this, hst]; norm_num
  constructor <;> simp only
  · linear_combination (-4) * s * s * h.sq_wy - 4 * s * s * (1 + m.r0.x + m.r1.y + m.r2.z) * hs + 4 * (1 + m.r0.x + m.r1.y + m.r2.z) * hss
  · linear_combination (-4) * s * s * h.sq_xy - 4 * s * s * (1 + m.r0.x - m.r1.y - m.r2.z) * hs + 4 * (1 + m.r0.x - m.r1.y - m.r2.z) * hss
  · linear_combination hs
  · linear_combination (-4) * s * s * h.sq_yz - 4 * s * s * (1 + m.r2.z - m.r0.x - m.r1.y) * hs + 4 * (1 + m.r2.z - m.r0.x - m.r1.y) * hss
  · linear_combination (-4) * s * s * h.mx_y_wx - 4 * s * s * (m.r2.y - m.r1.z) * hs + 4 * (m.r2.y - m.r1.z) * hss
  · linear_combination 2 * (m.r0.z - m.r2.x) * hst
  · linear_combination (-4) * s * s * h.mx_y_wz - 4 * s * s * (m.r1.x - m.r0.y) * hs + 4 * (m.r1.x - m.r0.y) * hss
  · linear_combination 2 * (m.r0.y + m.r1.x) * hst
  · linear_combination (-4) * s * s * h.mx_y_xz - 4 * s * s * (m.r0.z + m.r2.x) * hs + 4 * (m.r0.z + m.r2.x) * hss
  · linear_combination 2 * (m.r1.z + m.r2.y) * hst

theorem outer_pivot_z {m : M3} (h : m.Minors) {t : ℝ} (ht : 0 < t) (hs : t * t = 1 + m.r2.z - m.r0.x - m.r1.y) :
    Outer m ⟨(m.r1.x - m.r0.y) * (0.5 / t), (m.r0.z + m.r2.x) * (0.5 / t), (m.r1.z + m.r2.y) * (0.5 / t), 0.5 * t⟩ := by
  have hst : (0.5 / t) * t = 0.5 := by field_simp
  generalize 0.5 / t = s at hst
  have hss : s * s * (t * t) = 0.25 := by
    have : s * s * (t * t) = (s * t) * (s * t) := by ring
    rw [this, hst]; norm_num
  constructor <;> simp only
  · linear_combination (-4) * s * s * h.sq_wz - 4 * s * s * (1 + m.r0.x + m.r1.y + m.r2.z) * hs + 4 * (1 + m.r0.x + m.r1.y + m.r2.z) * hss
  · linear_combination (-4) * s * s * h.sq_xz - 4 * s * s * (1 + m.r0.x - m.r1.y - m.r2.z) * hs + 4 * (1 + m.r0.x - m.r1.y - m.r2.z) * hss
  · linear_combination (-4) * s * s * h.sq_yz - 4 * s * s * (1 + m.r1.y - m.r0.x - m.r2.z) * hs + 4 * (1 + m.r1.y - m.r0.x - m.r2.z) * hss
  · linear_combination hs
  · linear_combination (-4) * s * s * h.mx_z_wx - 4 * s * s * (m.r2.y - m.r1.z) * hs + 4 * (m.r2.y - m.r1.z) * hss
  · linear_combination (-4) * s * s * h.mx_z_wy - 4 * s * s * (m.r0.z - m.r2.x) * hs + 4 * (m.r0.z - m.r2.x) * hss
  · linear_combination 2 * (m.r1.x - m.r0.y) * hst
  · linear_combination (-4) * s * s * h.mx_z_xy - 4 * s * s * (m.r0.y + m.r1.x) * hs + 4 * (m.r0.y + m.r1.x) * hss
  · linear_combination 2 * (m.r0.z + m.r2.x) * hst
  · linear_combination 2 * (m.r1.z + m.r2.y) * hst

/-- The quaternion made from a rotation matrix. -/
theorem ofMatrix_outer {m : M3} (h : m.IsRotation) : Outer m (Quat.ofMatrix m) := by
  have hm := minors_of_rel (rel_of_isRotation h)
  unfold Quat.ofMatrix
  split
  · rename_i h0
    have ht : 0 < m.r0.x + m.r1.y + m.r2.z + 1 := by linarith
    have hs := Real.mul_self_sqrt ht.le
    exact outer_pivot_w hm (Real.sqrt_pos.2 ht) (by linarith)
  · rename_i h0
    split
    · rename_i h1
      split
      · rename_i h2
        have ht : 0 < m.r2.z - m.r0.x - m.r1.y + 1 := by linarith
        have hs := Real.mul_self_sqrt ht.le
        have := outer_pivot_z hm (Real.sqrt_pos.2 ht) (by linarith)
        simpa only [add_comm] using this
      · rename_i h2
        have ht : 0 < m.r1.y - m.r2.z - m.r0.x + 1 := by linarith
        have hs := Real.mul_self_sqrt ht.le
        have := outer_pivot_y hm (Real.sqrt_pos.2 ht) (by linarith)
        simpa only [add_comm] using this
    · rename_i h1
      split
      · rename_i h2
        have ht : 0 < m.r2.z - m.r0.x - m.r1.y + 1 := by linarith
        have hs := Real.mul_self_sqrt ht.le
        have := outer_pivot_z hm (Real.sqrt_pos.2 ht) (by linarith)
        simpa only [add_comm] using this
      · rename_i h2
        have ht : 0 < m.r0.x - m.r1.y - m.r2.z + 1 := by linarith
        have hs := Real.mul_self_sqrt ht.le
        have := outer_pivot_x hm (Real.sqrt_pos.2 ht) (by linarith)
        simpa only [add_comm] using this

/-- C101: a rotation made from an orthonormal matrix with determinant one converts back to that matrix, holds a unit quaternion
    and acts on vectors as the matrix does. -/
theorem C101_from_matrix {m : M3} (h : m.IsRotation) :
    (Rotation.ofMatrix m).matrix = m ∧ (Rotation.ofMatrix m).Unit ∧ ∀ v, (Rotation.ofMatrix m).apply v = m.mulVec v := by
  obtain ⟨h1, h2⟩ := outer_matrix (ofMatrix_outer h)
  refine ⟨h1, h2, ?_⟩
  intro v
  rw [← C100_matrix]
  exact congrArg (fun k => M3.mulVec k v) h1

/-- Quaternions with the same products differ at most in sign. -/
theorem outer_unique {m : M3} {p q : Quat} (hp : Outer m p) (hq : Outer m q) : p = q ∨ p = ⟨-q.w, -q.x, -q.y, -q.z⟩ := by
  have np := (outer_matrix hp).2
  have nq := (outer_matrix hq).2
  unfold sqNorm at np nq
  have e1 : p.w * p.w = q.w * q.w := by linarith [hp.ww, hq.ww]
  have e2 : p.x * p.x = q.x * q.x := by linarith [hp.xx, hq.xx]
  have e3 : p.y * p.y = q.y * q.y := by linarith [hp.yy, hq.yy]
  have e4 : p.z * p.z = q.z * q.z := by linarith [hp.zz, hq.zz]
  have e5 : p.w * p.x = q.w * q.x := by linarith [hp.wx, hq.wx]
  have e6 : p.w * p.y = q.w * q.y := by linarith [hp.wy, hq.wy]
  have e7 : p.w * p.z = q.w * q.z := by linarith [hp.wz, hq.wz]
  have e8 : p.x * p.y = q.x * q.y := by linarith [hp.xy, hq.xy]
  have e9 : p.x * p.z = q.x * q.z := by linarith [hp.xz, hq.xz]
  have e10 : p.y * p.z = q.y * q.z := by linarith [hp.yz, hq.yz]
  have hD : (p.w * q.w + p.x * q.x + p.y * q.y + p.z * q.z) * (p.w * q.w + p.x * q.x + p.y * q.y + p.z * q.z) = 1 := by
    linear_combination q.w * q.w * e1 + q.x * q.x * e2 + q.y * q.y * e3 + q.z * q.z * e4 + 2 * q.w * q.x * e5 + 2 * q.w * q.y * e6 +
      2 * q.w * q.z * e7 + 2 * q.x * q.y * e8 + 2 * q.x * q.z * e9 + 2 * q.y * q.z * e10 + (q.x * q.x + q.y * q.y + q.z * q.z + q.w * q.w + 1) * nq
  have zero_of : ∀ {a b c d : ℝ}, a * a + b * b + c * c + d * d = 0 → a = 0 ∧ b = 0 ∧ c = 0 ∧ d = 0 := by
    intro a b c d h
    have ha : a * a = 0 := by linarith [mul_self_nonneg a, mul_self_nonneg b, mul_self_nonneg c, mul_self_nonneg d]
    have hb : b * b = 0 := by linarith [mul_self_nonneg a, mul_self_nonneg b, mul_self_nonneg c, mul_self_nonneg d]
    have hc : c * c = 0 := by linarith [mul_self_nonneg a, mul_self_nonneg b, mul_self_nonneg c, mul_self_nonneg d]
    have hd : d * d = 0 := by linarith [mul_self_nonneg a, mul_self_nonneg b, mul_self_nonneg c, mul_self_nonneg d]
    exact ⟨mul_self_eq_zero.1 ha, mul_self_eq_zero.1 hb, mul_self_eq_zero.1 hc, mul_self_eq_zero.1 hd⟩
  have hD' : (p.w * q.w + p.x * q.x + p.y * q.y + p.z * q.z - 1) * (p.w * q.w + p.x * q.x + p.y * q.y + p.z * q.z + 1) = 0 := by linarith
  rcases mul_eq_zero.1 hD' with h | h
  · left
    have := zero_of (a := p.w - q.w) (b := p.x - q.x) (c := p.y - q.y) (d := p.z - q.z) (by linear_combination np + nq - 2 * h)
    ext <;> linarith [this.1, this.2.1, this.2.2.1, this.2.2.2]
  · right
    have := zero_of (a := p.w + q.w) (b := p.x + q.x) (c := p.y + q.y) (d := p.z + q.z) (by linear_combination np + nq + 2 * h)
    ext <;> simp only <;> linarith [this.1, this.2.1, this.2.2.1, this.2.2.2]

/-- C101: converting a rotation to a matrix and back returns the same quaternion up to sign, so a rotation that acts in the same
    way. -/
theorem C101_to_matrix {r : Rotation} (h : r.Unit) :
    ((Rotation.ofMatrix r.matrix).q = r.q ∨ (Rotation.ofMatrix r.matrix).q = ⟨-r.q.w, -r.q.x, -r.q.y, -r.q.z⟩) ∧
    ∀ v, (Rotation.ofMatrix r.matrix).apply v = r.apply v := by
  refine ⟨outer_unique (ofMatrix_outer (matrix_isRotation h)) (outer_of_unit h), ?_⟩
  intro v
  rw [(C101_from_matrix (matrix_isRotation h)).2.2 v, C100_matrix]

/-- C101: two rotations act in the same way exactly when their quaternions agree up to sign. -/
theorem C101_same_action {r s : Rotation} (hr : r.Unit) (hs : s.Unit) :
    (∀ v, r.apply v = s.apply v) ↔ r.q = s.q ∨ r.q = ⟨-s.q.w, -s.q.x, -s.q.y, -s.q.z⟩ := by
  constructor
  · intro h
    have hm : r.q.toMatrix = s.q.toMatrix := by
      have col : ∀ v, r.q.toMatrix.mulVec v = s.q.toMatrix.mulVec v := by
        intro v
        have := h v
        rw [← C100_matrix, ← C100_matrix] at this
        exact this
      have hx := col ⟨1, 0, 0⟩
      have hy := col ⟨0, 1, 0⟩
      have hz := col ⟨0, 0, 1⟩
      simp only [M3.mulVec, V3.dot, V3.mk.injEq, mul_one, mul_zero, add_zero, zero_add] at hx hy hz
      ext
      · exact hx.1
      · exact hy.1
      · exact hz.1
      · exact hx.2.1
      · exact hy.2.1
      · exact hz.2.1
      · exact hx.2.2
      · exact hy.2.2
      · exact hz.2.2
    have h1 := outer_of_unit hr
    rw [hm] at h1
    exact outer_unique h1 (outer_of_unit hs)
  · rintro (h | h) v
    · unfold Rotation.apply; rw [h]
    · rw [apply_eq_act hr, apply_eq_act hs, h]
      unfold act
      ext <;> simp only <;> ring

/-- The quaternion of a half turn about the x axis (trace -1: the branch for negative traces). -/
example : Rotation.ofMatrix ⟨⟨1, 0, 0⟩, ⟨0, -1, 0⟩, ⟨0, 0, -1⟩⟩ = ⟨⟨0, 1, 0, 0⟩⟩ ∧
    (⟨⟨1, 0, 0⟩, ⟨0, -1, 0⟩, ⟨0, 0, -1⟩⟩ : M3).IsRotation := by
  constructor
  · have h4 : Real.sqrt 4 = 2 := by rw [show (4 : ℝ) = 2 * 2 by norm_num]; exact Real.sqrt_mul_self (by norm_num)
    unfold Rotation.ofMatrix Quat.ofMatrix
    norm_num [h4]
  · constructor
    · simp [M3.mul, M3.transpose, M3.one, V3.dot]
    · simp [M3.det, V3.dot, V3.cross]

end Vital.Geo
