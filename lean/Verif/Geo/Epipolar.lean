import Verif.Geo.Homography
import Mathlib.LinearAlgebra.Matrix.ToLinearEquiv
import Mathlib.LinearAlgebra.Matrix.Determinant.Basic
/- Essential and fundamental matrices (vital/types/essential_matrix.{h,cxx}, fundamental_matrix.{h,cxx}): properties C109 and C110. -/
namespace Vital.Geo
open Rotation

namespace M3

/-- The diagonal matrix. -/
def diag (a b c : ℝ) : M3 := ⟨⟨a, 0, 0⟩, ⟨0, b, 0⟩, ⟨0, 0, c⟩⟩

/-- The sum of the products of the entries. -/
noncomputable def inner (a b : M3) : ℝ := a.r0.dot b.r0 + a.r1.dot b.r1 + a.r2.dot b.r2

/-- The squared Frobenius norm, and the difference of two matrices. -/
noncomputable def frob (a : M3) : ℝ := a.inner a
noncomputable def sub (a b : M3) : M3 := ⟨a.r0 - b.r0, a.r1 - b.r1, a.r2 - b.r2⟩

/-- Columns and rows are orthonormal. -/
structure Orth (u : M3) : Prop where
  left : u.transpose.mul u = one
  right : u.mul u.transpose = one

end M3

open M3

/-- What is used of `Eigen::JacobiSVD`: orthogonal factors and singular values in decreasing order. -/
structure IsSVD (a u : M3) (s : V3) (v : M3) : Prop where
  uo : u.Orth
  vo : v.Orth
  nonneg : 0 ≤ s.z
  ord : s.z ≤ s.y ∧ s.y ≤ s.x
  eq : a = (u.mul (diag s.x s.y s.z)).mul v.transpose

/-- `essential_matrix_<T>` -/
-- models: vital/types/essential_matrix.h:186-191 (members)
structure Essential where
  rot : Rotation
  trans : V3

/-- The matrix of the cross product. -/
def crossMat (t : V3) : M3 := ⟨⟨0, -t.z, t.y⟩, ⟨t.z, 0, -t.x⟩, ⟨-t.y, t.x, 0⟩⟩

namespace Essential

/-- `sgn` is the sign the product `U W V^T` is multiplied with. -/
-- models: vital/types/essential_matrix.cxx:63-83 (constructor from a matrix, after the decomposition)
noncomputable def ofSVD (u v : M3) : Essential :=
  let w : M3 := ⟨⟨0, -1, 0⟩, ⟨1, 0, 0⟩, ⟨0, 0, 1⟩⟩
  let r := (u.mul w).mul v.transpose
  let r := if r.det < 0 then r.scale (-1) else r
  ⟨Rotation.ofMatrix r, u.transpose.r2⟩

-- models: vital/types/essential_matrix.cxx:86-93 (constructor from rotation and translation)
noncomputable def ofRT (r : Rotation) (t : V3) : Essential := ⟨r, t.normalized⟩

-- models: vital/types/essential_matrix.cxx:188-199 (compute_matrix)
noncomputable def matrix (e : Essential) : M3 := (crossMat e.trans).mul e.rot.matrix

-- models: vital/types/essential_matrix.cxx:202-212 (compute_twisted_rotation)
noncomputable def twisted (e : Essential) : Rotation := (Rotation.ofVec4 e.trans.x e.trans.y e.trans.z 0).compose e.rot

end Essential

/-- The matrix of a `fundamental_matrix_<T>` after the decomposition of the argument. -/
-- models: vital/types/fundamental_matrix.cxx:47-62 (constructor from a matrix)
noncomputable def fundamentalOfSVD (u : M3) (s : V3) (v : M3) : M3 :=
  let s' : V3 := ⟨s.x, s.y, 0⟩
  let s'' := s'.div s'.norm
  (u.mul (diag s''.x s''.y s''.z)).mul v.transpose

open Essential

/-! ### Matrix algebra -/

theorem crossMat_mulVec (t v : V3) : (crossMat t).mulVec v = t.cross v := by
  unfold crossMat M3.mulVec V3.cross V3.dot
  ext <;> simp only <;> ring

theorem det_mul (a b : M3) : (a.mul b).det = a.det * b.det := by
  unfold M3.mul M3.transpose M3.det V3.cross V3.dot
  simp only
  ring

theorem det_transpose (a : M3) : a.transpose.det = a.det := by
  unfold M3.transpose M3.det V3.cross V3.dot
  simp only
  ring

theorem transpose_transpose (a : M3) : a.transpose.transpose = a := rfl

theorem transpose_mul (a b : M3) : (a.mul b).transpose = b.transpose.mul a.transpose := by
  unfold M3.mul M3.transpose V3.dot
  ext <;> simp only <;> ring

theorem inner_mul_left (a b c : M3) : (a.mul b).inner c = b.inner (a.transpose.mul c) := by
  unfold M3.mul M3.transpose M3.inner V3.dot
  simp only
  ring

theorem inner_mul_right (a b c : M3) : (a.mul b).inner c = a.inner (c.mul b.transpose) := by
  unfold M3.mul M3.transpose M3.inner V3.dot
  simp only
  ring

theorem inner_comm (a b : M3) : a.inner b = b.inner a := by
  unfold M3.inner V3.dot
  ring

theorem orth_det {u : M3} (h : u.Orth) : u.det = 1 ∨ u.det = -1 := by
  have h1 : u.det * u.det = 1 := by
    have := congrArg M3.det h.right
    rw [det_mul, det_transpose] at this
    rw [this]
    unfold M3.one M3.det V3.cross V3.dot
    norm_num
  have : (u.det - 1) * (u.det + 1) = 0 := by linear_combination h1
  rcases mul_eq_zero.1 this with h | h
  · left; linarith
  · right; linarith

theorem orth_transpose {u : M3} (h : u.Orth) : u.transpose.Orth := ⟨by rw [transpose_transpose]; exact h.right, by rw [transpose_transpose]; exact h.left⟩

theorem orth_mul {u v : M3} (hu : u.Orth) (hv : v.Orth) : (u.mul v).Orth := by
  constructor
  · rw [transpose_mul, m3_mul_assoc, ← m3_mul_assoc u.transpose, hu.left, (m3_one_mul _).1, hv.left]
  · rw [transpose_mul, m3_mul_assoc, ← m3_mul_assoc v, hv.right, (m3_one_mul _).1, hu.right]

theorem scale_scale (m : M3) : (m.scale (-1)).scale (-1) = m := by
  unfold M3.scale
  ext <;> simp

theorem scale_mul (s : ℝ) (a b : M3) : (a.scale s).mul b = (a.mul b).scale s ∧ a.mul (b.scale s) = (a.mul b).scale s := by
  unfold M3.scale M3.mul M3.transpose V3.dot
  constructor <;> ext <;> simp only [V3.smul_x, V3.smul_y, V3.smul_z] <;> ring

theorem scale_transpose (s : ℝ) (a : M3) : (a.scale s).transpose = a.transpose.scale s := rfl

theorem scale_det (s : ℝ) (a : M3) : (a.scale s).det = s * s * s * a.det := by
  unfold M3.scale M3.det V3.cross V3.dot
  simp only [V3.smul_x, V3.smul_y, V3.smul_z]
  ring

theorem orth_neg {u : M3} (h : u.Orth) : (u.scale (-1)).Orth := by
  constructor
  · rw [scale_transpose, (scale_mul _ _ _).1, (scale_mul _ _ _).2, h.left, scale_scale]
  · rw [scale_transpose, (scale_mul _ _ _).1, (scale_mul _ _ _).2, h.right, scale_scale]

theorem isRotation_of_orth {u : M3} (h : u.Orth) (hd : u.det = 1) : u.IsRotation := ⟨h.right, hd⟩

theorem orth_of_isRotation {r : Rotation} (h : r.Unit) : r.matrix.Orth := by
  refine ⟨?_, (matrix_isRotation h).orth⟩
  have hi := (C100_inverse h)
  apply matrix_ext
  intro v
  rw [mulVec_mul, C100_matrix]
  have e : r.matrix.transpose = r.inverse.matrix := by
    rw [inverse_of_unit h]
    unfold Rotation.matrix Quat.toMatrix Quat.conj M3.transpose
    ext <;> simp only <;> ring
  rw [e, C100_matrix, (hi v).1, one_mulVec]

theorem orth_dot {u : M3} (h : u.Orth) (a b : V3) : (u.mulVec a).dot (u.mulVec b) = a.dot b := by
  have h1 : (u.mulVec a).dot (u.mulVec b) = a.dot ((u.transpose.mul u).mulVec b) := by
    rw [mulVec_mul]
    unfold M3.mulVec M3.transpose V3.dot
    simp only
    ring
  rw [h1, h.left, one_mulVec]

/-- The third column crossed with the others. -/
theorem orth_cross {u : M3} (h : u.Orth) :
    u.transpose.r2.cross u.transpose.r0 = u.det • u.transpose.r1 ∧ u.transpose.r2.cross u.transpose.r1 = -(u.det • u.transpose.r0) := by
  have key : ∀ {w : M3}, w.Orth → w.det = 1 → w.transpose.r2.cross w.transpose.r0 = w.transpose.r1 ∧ w.transpose.r2.cross w.transpose.r1 = -w.transpose.r0 := by
    intro w hw hd
    have hr := rel_of_isRotation (isRotation_of_orth (orth_transpose hw) (by rw [det_transpose]; exact hd))
    refine ⟨hr.c1.symm, ?_⟩
    conv_rhs => rw [hr.c0]
    unfold V3.cross
    ext <;> simp only [V3.neg_x, V3.neg_y, V3.neg_z] <;> ring
  rcases orth_det h with hd | hd
  · obtain ⟨k1, k2⟩ := key h hd
    rw [hd, one_smul, one_smul]
    exact ⟨k1, k2⟩
  · obtain ⟨k1, k2⟩ := key (orth_neg h) (by rw [scale_det, hd]; norm_num)
    rw [hd]
    rw [scale_transpose] at k1 k2
    unfold M3.scale at k1 k2
    simp only at k1 k2
    have cs : ∀ a b : V3, ((-1 : ℝ) • a).cross ((-1 : ℝ) • b) = a.cross b := by
      intro a b
      unfold V3.cross
      ext <;> simp only [V3.smul_x, V3.smul_y, V3.smul_z] <;> ring
    rw [cs] at k1 k2
    exact ⟨k1, k2⟩

/-! ### C109 -/

/-- C109: the epipolar constraint. If the second camera sees at `x2 = R x1 + s t` the point that the first sees at `x1` (with any
    multiples `a`, `b` for the unknown depths), then `x2 . E x1 = 0`; in general the form is the triple product of `x2`, `t`
    and `R x1`, and `t` itself is in the left kernel. -/
theorem C109_epipolar (e : Essential) (x1 x2 : V3) (s a b : ℝ) :
    (b • (e.rot.apply x1 + s • e.trans)).dot (e.matrix.mulVec (a • x1)) = 0 ∧
    x2.dot (e.matrix.mulVec x1) = x2.dot (e.trans.cross (e.rot.apply x1)) ∧ e.trans.dot (e.matrix.mulVec x1) = 0 := by
  unfold Essential.matrix
  simp only [mulVec_mul, crossMat_mulVec, C100_matrix]
  rw [(show e.rot.apply (a • x1) = a • e.rot.apply x1 by rw [← C100_matrix, mulVec_smul, C100_matrix])]
  generalize e.rot.apply x1 = y
  refine ⟨?_, trivial, ?_⟩
  · unfold V3.dot V3.cross
    simp only [V3.add_x, V3.add_y, V3.add_z, V3.smul_x, V3.smul_y, V3.smul_z]
    ring
  · unfold V3.dot V3.cross
    ring

/-- C109: only the direction of the translation matters, and its sign changes the sign of the matrix; the translation kept is a
    unit vector. -/
theorem C109_scale (r : Rotation) {t : V3} (ht : t ≠ 0) {s : ℝ} :
    (ofRT r t).trans.norm = 1 ∧ (0 < s → (ofRT r (s • t)).matrix = (ofRT r t).matrix) ∧
    (s < 0 → (ofRT r (s • t)).matrix = (ofRT r t).matrix.scale (-1)) := by
  have hn : ∀ s : ℝ, (s • t).norm = |s| * t.norm := by
    intro s
    unfold V3.norm
    have : (s • t).dot (s • t) = s ^ 2 * t.dot t := by
      unfold V3.dot
      simp only [V3.smul_x, V3.smul_y, V3.smul_z]
      ring
    rw [this, Real.sqrt_mul (sq_nonneg s), Real.sqrt_sq_eq_abs]
  have htn := V3.norm_pos ht
  refine ⟨V3.norm_of_dot_one (V3.normalized_dot ht), ?_, ?_⟩
  · intro hs
    have hst : s • t ≠ 0 := by
      intro e
      have := hn s
      rw [e, V3.norm_eq_zero.2 rfl] at this
      have := mul_pos (abs_pos.2 hs.ne') htn
      linarith
    have : (s • t).normalized = t.normalized := by
      rw [V3.normalized_of_ne hst, V3.normalized_of_ne ht, hn, abs_of_pos hs]
      unfold V3.div
      ext <;> simp only [V3.smul_x, V3.smul_y, V3.smul_z] <;> field_simp
    unfold ofRT
    rw [this]
  · intro hs
    have hst : s • t ≠ 0 := by
      intro e
      have := hn s
      rw [e, V3.norm_eq_zero.2 rfl] at this
      have := mul_pos (abs_pos.2 hs.ne) htn
      linarith
    have : (s • t).normalized = (-1 : ℝ) • t.normalized := by
      rw [V3.normalized_of_ne hst, V3.normalized_of_ne ht, hn, abs_of_neg hs]
      have hs0 := hs.ne
      unfold V3.div
      ext <;> simp only [V3.smul_x, V3.smul_y, V3.smul_z] <;> field_simp
    unfold ofRT Essential.matrix
    simp only
    rw [this, ← (scale_mul (-1) _ _).1]
    congr 1
    unfold crossMat M3.scale
    ext <;> simp

/-- C109: the twisted rotation is a rotation too and gives the negated matrix, that is, the same constraint; it differs from the
    rotation by a half turn about the translation. -/
theorem C109_twisted {e : Essential} (hr : e.rot.Unit) (ht : e.trans.dot e.trans = 1) :
    e.twisted.Unit ∧ (⟨e.twisted, e.trans⟩ : Essential).matrix = e.matrix.scale (-1) ∧
    ∀ v, e.twisted.apply v = (2 * e.trans.dot (e.rot.apply v)) • e.trans - e.rot.apply v := by
  have hu : (Rotation.ofVec4 e.trans.x e.trans.y e.trans.z 0).Unit := by
    unfold Rotation.Unit Rotation.ofVec4 Quat.sqNorm
    unfold V3.dot at ht
    simp only
    linarith
  have htw : ∀ v, e.twisted.apply v = (2 * e.trans.dot (e.rot.apply v)) • e.trans - e.rot.apply v := by
    intro v
    unfold Essential.twisted
    rw [C100_compose hu hr]
    generalize e.rot.apply v = y
    unfold Rotation.apply Quat.rotate Rotation.ofVec4 Quat.vec V3.cross
    unfold V3.dot at *
    ext <;> simp only [V3.add_x, V3.add_y, V3.add_z, V3.smul_x, V3.smul_y, V3.smul_z, V3.sub_x, V3.sub_y, V3.sub_z]
    · linear_combination (-2 * y.x) * ht
    · linear_combination (-2 * y.y) * ht
    · linear_combination (-2 * y.z) * ht
  refine ⟨unit_compose hu hr, ?_, htw⟩
  apply matrix_ext
  intro v
  have hs : (e.matrix.scale (-1)).mulVec v = (-1 : ℝ) • e.matrix.mulVec v := by
    unfold M3.scale M3.mulVec V3.dot
    ext <;> simp only [V3.smul_x, V3.smul_y, V3.smul_z] <;> ring
  rw [hs]
  unfold Essential.matrix
  simp only [mulVec_mul, crossMat_mulVec, C100_matrix]
  rw [htw]
  generalize e.rot.apply v = y
  unfold V3.cross
  ext <;> simp only [V3.smul_x, V3.smul_y, V3.smul_z, V3.sub_x, V3.sub_y, V3.sub_z] <;> ring

theorem mulVec_cols (u : M3) (v : V3) : u.mulVec v = v.x • u.transpose.r0 + v.y • u.transpose.r1 + v.z • u.transpose.r2 := by
  unfold M3.mulVec M3.transpose V3.dot
  ext <;> simp only [V3.add_x, V3.add_y, V3.add_z, V3.smul_x, V3.smul_y, V3.smul_z] <;> ring

/-- The rotation found by the constructor from a matrix. -/
theorem ofSVD_spec {u v : M3} (hu : u.Orth) (hv : v.Orth) :
    (ofSVD u v).rot.Unit ∧ (ofSVD u v).trans.dot (ofSVD u v).trans = 1 ∧
    ∃ g : ℝ, (g = 1 ∨ g = -1) ∧ (ofSVD u v).matrix = (((u.mul (diag 1 1 0)).mul v.transpose).scale g) := by
  have hw : (⟨⟨0, -1, 0⟩, ⟨1, 0, 0⟩, ⟨0, 0, 1⟩⟩ : M3).Orth := by
    constructor <;> unfold M3.mul M3.transpose M3.one V3.dot <;> ext <;> simp
  have hro := orth_mul (orth_mul hu hw) (orth_transpose hv)
  have htr : u.transpose.r2.dot u.transpose.r2 = 1 := by
    have := congrArg M3.r2 hu.left
    have := congrArg V3.z this
    exact this
  obtain ⟨c1, c2⟩ := orth_cross hu
  have hcross : ∀ w : V3, u.transpose.r2.cross (u.mulVec ((⟨⟨0, -1, 0⟩, ⟨1, 0, 0⟩, ⟨0, 0, 1⟩⟩ : M3).mulVec w)) = (-u.det) • (u.mulVec ((diag 1 1 0).mulVec w)) := by
    intro w
    have e1 : (⟨⟨0, -1, 0⟩, ⟨1, 0, 0⟩, ⟨0, 0, 1⟩⟩ : M3).mulVec w = ⟨-w.y, w.x, w.z⟩ := by
      unfold M3.mulVec V3.dot
      ext <;> simp
    have e2 : (diag 1 1 0).mulVec w = ⟨w.x, w.y, 0⟩ := by
      unfold diag M3.mulVec V3.dot
      ext <;> simp
    rw [e1, e2, mulVec_cols, mulVec_cols]
    have lin : ∀ (a b c t : V3) (p q r : ℝ), t.cross (p • a + q • b + r • c) = p • t.cross a + q • t.cross b + r • t.cross c := by
      intro a b c t p q r
      unfold V3.cross
      ext <;> simp only [V3.add_x, V3.add_y, V3.add_z, V3.smul_x, V3.smul_y, V3.smul_z] <;> ring
    have self : ∀ t : V3, t.cross t = 0 := by
      intro t
      unfold V3.cross
      ext <;> simp only [V3.zero_x, V3.zero_y, V3.zero_z] <;> ring
    rw [lin, c1, c2, self]
    ext <;> simp only [V3.add_x, V3.add_y, V3.add_z, V3.smul_x, V3.smul_y, V3.smul_z, V3.neg_x, V3.neg_y, V3.neg_z, V3.zero_x, V3.zero_y, V3.zero_z] <;> ring
  have hmat : ∀ s : ℝ, (crossMat u.transpose.r2).mul ((((u.mul ⟨⟨0, -1, 0⟩, ⟨1, 0, 0⟩, ⟨0, 0, 1⟩⟩).mul v.transpose)).scale s) =
      ((u.mul (diag 1 1 0)).mul v.transpose).scale (s * -u.det) := by
    intro s
    apply matrix_ext
    intro x
    have sc : ∀ (g : ℝ) (m : M3), (m.scale g).mulVec x = g • m.mulVec x := by
      intro g m
      unfold M3.scale M3.mulVec V3.dot
      ext <;> simp only [V3.smul_x, V3.smul_y, V3.smul_z] <;> ring
    rw [mulVec_mul, crossMat_mulVec, sc, sc]
    have cs : ∀ (t a : V3) (g : ℝ), t.cross (g • a) = g • t.cross a := by
      intro t a g
      unfold V3.cross
      ext <;> simp only [V3.smul_x, V3.smul_y, V3.smul_z] <;> ring
    rw [cs, mulVec_mul, mulVec_mul, hcross, mulVec_mul, mulVec_mul]
    ext <;> simp only [V3.smul_x, V3.smul_y, V3.smul_z] <;> ring
  unfold ofSVD Essential.matrix
  simp only
  have hdet := orth_det hro
  by_cases hneg : ((u.mul ⟨⟨0, -1, 0⟩, ⟨1, 0, 0⟩, ⟨0, 0, 1⟩⟩).mul v.transpose).det < 0
  · rw [if_pos hneg]
    have hd : ((u.mul ⟨⟨0, -1, 0⟩, ⟨1, 0, 0⟩, ⟨0, 0, 1⟩⟩).mul v.transpose).det = -1 := by
      rcases hdet with h | h
      · rw [h] at hneg; linarith
      · exact h
    have hR := isRotation_of_orth (orth_neg hro) (by rw [scale_det, hd]; norm_num)
    obtain ⟨h1, h2, -⟩ := C101_from_matrix hR
    refine ⟨h2, htr, -1 * -u.det, ?_, ?_⟩
    · rcases orth_det hu with h | h <;> rw [h]
      · left; norm_num
      · right; norm_num
    · rw [h1, hmat]
  · rw [if_neg hneg]
    have hd : ((u.mul ⟨⟨0, -1, 0⟩, ⟨1, 0, 0⟩, ⟨0, 0, 1⟩⟩).mul v.transpose).det = 1 := by
      rcases hdet with h | h
      · exact h
      · rw [h] at hneg; exact absurd (by norm_num) hneg
    have hR := isRotation_of_orth hro hd
    obtain ⟨h1, h2, -⟩ := C101_from_matrix hR
    refine ⟨h2, htr, 1 * -u.det, ?_, ?_⟩
    · rcases orth_det hu with h | h <;> rw [h]
      · right; norm_num
      · left; norm_num
    · rw [h1]
      have := hmat 1
      have one : ∀ m : M3, m.scale 1 = m := by
        intro m
        unfold M3.scale
        ext <;> simp
      rw [one] at this
      exact this

/-- C109: an essential matrix, known up to scale, is recovered up to scale and sign from its entries. -/
theorem C109_from_matrix {a u v : M3} {s : V3} (h : IsSVD a u s v) :
    (ofSVD u v).rot.Unit ∧ (ofSVD u v).trans.norm = 1 ∧
    (s.x = s.y → s.z = 0 → ∃ g : ℝ, (g = s.x ∨ g = -s.x) ∧ a = (ofSVD u v).matrix.scale g) := by
  obtain ⟨h1, h2, g, hg, hm⟩ := ofSVD_spec h.uo h.vo
  refine ⟨h1, V3.norm_of_dot_one h2, ?_⟩
  intro e1 e2
  refine ⟨s.x * g, by rcases hg with h | h <;> rw [h] <;> simp, ?_⟩
  rw [hm, h.eq, ← e1, e2]
  have : diag s.x s.x 0 = (diag 1 1 0).scale s.x := by
    unfold diag M3.scale
    ext <;> simp
  rw [this, (scale_mul _ _ _).2, (scale_mul _ _ _).1]
  have ss : ∀ (p q : ℝ) (m : M3), (m.scale q).scale p = m.scale (p * q) := by
    intro p q m
    unfold M3.scale
    ext <;> simp only [V3.smul_x, V3.smul_y, V3.smul_z] <;> ring
  rw [ss]
  congr 1
  rcases hg with h | h <;> rw [h] <;> ring

/-- The largest trace of a cross product matrix times a rotation. -/
theorem trace_cross_le {t : V3} (ht : t.dot t = 1) {o : M3} (ho : o.Orth) : |M3.one.inner ((crossMat t).mul o)| ≤ 2 := by
  have key : ∀ {w : M3}, w.Orth → w.det = 1 → |M3.one.inner ((crossMat t).mul w)| ≤ 2 := by
    intro w hw hd
    obtain ⟨h1, h2, -⟩ := C101_from_matrix (isRotation_of_orth hw hd)
    rw [← h1]
    generalize Rotation.ofMatrix w = r at *
    have hu : r.q.x * r.q.x + r.q.y * r.q.y + r.q.z * r.q.z + r.q.w * r.q.w = 1 := h2
    have e : M3.one.inner ((crossMat t).mul r.matrix) = -(4 * r.q.w * (r.q.x * t.x + r.q.y * t.y + r.q.z * t.z)) := by
      unfold M3.one M3.inner crossMat M3.mul M3.transpose Rotation.matrix Quat.toMatrix V3.dot
      simp only
      ring
    rw [e, abs_neg]
    unfold V3.dot at ht
    have hcs : (r.q.x * t.x + r.q.y * t.y + r.q.z * t.z) ^ 2 ≤ 1 - r.q.w * r.q.w := by
      have : (r.q.x * t.x + r.q.y * t.y + r.q.z * t.z) ^ 2 + ((r.q.x * t.y - r.q.y * t.x) ^ 2 + (r.q.x * t.z - r.q.z * t.x) ^ 2 + (r.q.y * t.z - r.q.z * t.y) ^ 2) = 1 - r.q.w * r.q.w := by
        linear_combination (r.q.x * r.q.x + r.q.y * r.q.y + r.q.z * r.q.z) * ht + hu
      nlinarith [sq_nonneg (r.q.x * t.y - r.q.y * t.x), sq_nonneg (r.q.x * t.z - r.q.z * t.x), sq_nonneg (r.q.y * t.z - r.q.z * t.y)]
    rw [abs_le]
    generalize r.q.x * t.x + r.q.y * t.y + r.q.z * t.z = d at *
    constructor <;> nlinarith [sq_nonneg (r.q.w + d), sq_nonneg (r.q.w - d)]
  rcases orth_det ho with hd | hd
  · exact key ho hd
  · have := key (orth_neg ho) (by rw [scale_det, hd]; norm_num)
    rw [(scale_mul _ _ _).2] at this
    have e : ∀ m : M3, M3.one.inner (m.scale (-1)) = -(M3.one.inner m) := by
      intro m
      unfold M3.one M3.inner M3.scale V3.dot
      simp only [V3.smul_x, V3.smul_y, V3.smul_z]
      ring
    rw [e, abs_neg] at this
    exact this

theorem triple_le {a t b : V3} (ha : a.dot a = 1) (ht : t.dot t = 1) (hb : b.dot b = 1) : a.dot (t.cross b) ≤ 1 := by
  have h1 : (t.cross b).dot (t.cross b) ≤ 1 := by
    have : (t.cross b).dot (t.cross b) = t.dot t * b.dot b - (t.dot b) ^ 2 := by
      unfold V3.cross V3.dot
      ring
    rw [this, ht, hb]
    nlinarith [sq_nonneg (t.dot b)]
  have h2 : 0 ≤ (a - t.cross b).dot (a - t.cross b) := V3.dot_self_nonneg _
  have h3 : (a - t.cross b).dot (a - t.cross b) = a.dot a - 2 * a.dot (t.cross b) + (t.cross b).dot (t.cross b) := by
    generalize t.cross b = c
    unfold V3.dot
    simp only [V3.sub_x, V3.sub_y, V3.sub_z]
    ring
  rw [h3, ha] at h2
  linarith

theorem frob_sub (a b : M3) : (a.sub b).frob = a.frob - 2 * a.inner b + b.frob := by
  unfold M3.frob M3.sub M3.inner V3.dot
  simp only [V3.sub_x, V3.sub_y, V3.sub_z]
  ring

theorem frob_orth {u v : M3} (hu : u.Orth) (hv : v.Orth) (m : M3) : ((u.mul m).mul v.transpose).frob = m.frob := by
  unfold M3.frob
  rw [inner_mul_right, transpose_transpose, m3_mul_assoc, hv.left, (m3_one_mul _).2, inner_mul_left, ← m3_mul_assoc, hu.left, (m3_one_mul _).1]

theorem frob_essential {e : Essential} (hr : e.rot.Unit) (ht : e.trans.dot e.trans = 1) : e.matrix.frob = 2 := by
  unfold Essential.matrix
  have h := frob_orth (u := M3.one) (v := e.rot.matrix.transpose) ?_ (orth_transpose (orth_of_isRotation hr)) (crossMat e.trans)
  · rw [(m3_one_mul _).1, transpose_transpose] at h
    rw [h]
    unfold M3.frob M3.inner crossMat V3.dot at *
    simp only
    linear_combination 2 * ht
  · constructor <;> unfold M3.mul M3.transpose M3.one V3.dot <;> ext <;> simp

/-- C109: the matrix found is, up to its sign, a closest essential matrix (with unit translation) to the argument. -/
theorem C109_closest {a u v : M3} {s : V3} (h : IsSVD a u s v) {e : Essential} (hr : e.rot.Unit) (ht : e.trans.dot e.trans = 1) :
    (a.sub (ofSVD u v).matrix).frob ≤ (a.sub e.matrix).frob ∨ (a.sub ((ofSVD u v).matrix.scale (-1))).frob ≤ (a.sub e.matrix).frob := by
  obtain ⟨h1, h2, g, hg, hm⟩ := ofSVD_spec h.uo h.vo
  -- the inner product with any essential matrix
  have hin : a.inner e.matrix = (diag s.x s.y s.z).inner ((u.transpose.mul e.matrix).mul v) := by
    rw [h.eq, inner_mul_right, transpose_transpose, inner_mul_left, ← m3_mul_assoc]
  have hent : ∀ (x y : V3) , x.dot x = 1 → y.dot y = 1 → x.dot (e.matrix.mulVec y) ≤ 1 := by
    intro x y hx hy
    rw [(C109_epipolar e y x 0 0 0).2.1]
    exact triple_le hx ht (by rw [(C100_isometry hr y y 0).1]; exact hy)
  have hcol : ∀ {w : M3}, w.Orth → w.transpose.r0.dot w.transpose.r0 = 1 ∧ w.transpose.r1.dot w.transpose.r1 = 1 ∧ w.transpose.r2.dot w.transpose.r2 = 1 := by
    intro w hw
    have := hw.left
    exact ⟨congrArg (fun m => m.r0.x) this, congrArg (fun m => m.r1.y) this, congrArg (fun m => m.r2.z) this⟩
  have m00 : ((u.transpose.mul e.matrix).mul v).r0.x ≤ 1 := by
    have := hent _ _ (hcol h.uo).1 (hcol h.vo).1
    refine le_trans (le_of_eq ?_) this
    unfold M3.mul M3.mulVec M3.transpose V3.dot
    simp only
    ring
  have m11 : ((u.transpose.mul e.matrix).mul v).r1.y ≤ 1 := by
    have := hent _ _ (hcol h.uo).2.1 (hcol h.vo).2.1
    refine le_trans (le_of_eq ?_) this
    unfold M3.mul M3.mulVec M3.transpose V3.dot
    simp only
    ring
  have mtr : ((u.transpose.mul e.matrix).mul v).r0.x + ((u.transpose.mul e.matrix).mul v).r1.y + ((u.transpose.mul e.matrix).mul v).r2.z ≤ 2 := by
    have h3 : ((u.transpose.mul e.matrix).mul v).r0.x + ((u.transpose.mul e.matrix).mul v).r1.y + ((u.transpose.mul e.matrix).mul v).r2.z =
        M3.one.inner ((crossMat e.trans).mul (e.rot.matrix.mul (v.mul u.transpose))) := by
      have e1 : M3.one.inner ((u.transpose.mul e.matrix).mul v) =
          ((u.transpose.mul e.matrix).mul v).r0.x + ((u.transpose.mul e.matrix).mul v).r1.y + ((u.transpose.mul e.matrix).mul v).r2.z := by
        unfold M3.one M3.inner V3.dot
        simp
      rw [← e1]
      have e2 : M3.one.inner ((u.transpose.mul e.matrix).mul v) = M3.one.inner (e.matrix.mul (v.mul u.transpose)) := by
        rw [m3_mul_assoc, ← inner_mul_left, (m3_one_mul _).2, ← m3_mul_assoc]
        have := inner_mul_right M3.one u (e.matrix.mul v)
        rw [(m3_one_mul _).1] at this
        exact this
      rw [e2]
      unfold Essential.matrix
      rw [m3_mul_assoc]
    rw [h3]
    exact (abs_le.1 (trace_cross_le ht (orth_mul (orth_of_isRotation hr) (orth_mul h.vo (orth_transpose h.uo))))).2
  have hle : a.inner e.matrix ≤ s.x + s.y := by
    rw [hin]
    have : (diag s.x s.y s.z).inner ((u.transpose.mul e.matrix).mul v) =
        s.x * ((u.transpose.mul e.matrix).mul v).r0.x + s.y * ((u.transpose.mul e.matrix).mul v).r1.y + s.z * ((u.transpose.mul e.matrix).mul v).r2.z := by
      unfold diag M3.inner V3.dot
      simp
    rw [this]
    generalize ((u.transpose.mul e.matrix).mul v).r0.x = p at *
    generalize ((u.transpose.mul e.matrix).mul v).r1.y = q at *
    generalize ((u.transpose.mul e.matrix).mul v).r2.z = r at *
    have o1 := h.ord.1
    have o2 := h.ord.2
    have o3 := h.nonneg
    nlinarith [mul_nonneg (sub_nonneg.2 o2) (sub_nonneg.2 m00), mul_nonneg (sub_nonneg.2 o1) (sub_nonneg.2 (add_le_add m00 m11)), mul_nonneg o3 (sub_nonneg.2 mtr)]
  have hfe := frob_essential hr ht
  have hbest : a.inner ((u.mul (diag 1 1 0)).mul v.transpose) = s.x + s.y := by
    rw [h.eq, inner_mul_right, transpose_transpose, m3_mul_assoc (u.mul (diag 1 1 0)), h.vo.left, (m3_one_mul _).2, inner_mul_left, ← m3_mul_assoc, h.uo.left, (m3_one_mul _).1]
    unfold diag M3.inner V3.dot
    simp
  have hfb : ((u.mul (diag 1 1 0)).mul v.transpose).frob = 2 := by
    rw [frob_orth h.uo h.vo]
    unfold diag M3.frob M3.inner V3.dot
    norm_num
  have hfin : (a.sub ((u.mul (diag 1 1 0)).mul v.transpose)).frob ≤ (a.sub e.matrix).frob := by
    rw [frob_sub, frob_sub, hbest, hfb, hfe]
    linarith
  have one : ∀ m : M3, m.scale 1 = m := by
    intro m
    unfold M3.scale
    ext <;> simp
  rw [hm]
  rcases hg with hg | hg
  · left
    rw [hg, one]
    exact hfin
  · right
    rw [hg, scale_scale]
    exact hfin

/-- An essential matrix: a camera moved along x and turned by a half turn about z. -/
example : (ofRT ⟨⟨0, 0, 0, 1⟩⟩ ⟨3, 0, 0⟩).rot.Unit ∧ (ofRT ⟨⟨0, 0, 0, 1⟩⟩ ⟨3, 0, 0⟩).trans.dot (ofRT ⟨⟨0, 0, 0, 1⟩⟩ ⟨3, 0, 0⟩).trans = 1 := by
  refine ⟨by simp [ofRT, Rotation.Unit, Quat.sqNorm], V3.normalized_dot ?_⟩
  intro e
  have := congrArg V3.x e
  simp at this

theorem orth_one : M3.one.Orth := by
  constructor <;> unfold M3.mul M3.transpose M3.one V3.dot <;> ext <;> simp

/-- A decomposition. -/
example : IsSVD (diag 3 2 1) M3.one ⟨3, 2, 1⟩ M3.one := by
  refine ⟨orth_one, orth_one, by norm_num, by norm_num, ?_⟩
  rw [(m3_one_mul _).1, show M3.one.transpose = M3.one from rfl, (m3_one_mul _).2]

/-! ### C110 -/

theorem exists_kernel {b : M3} (h : b.det = 0) : ∃ x : V3, x ≠ 0 ∧ b.mulVec x = 0 := by
  let m : Matrix (Fin 3) (Fin 3) ℝ := !![b.r0.x, b.r0.y, b.r0.z; b.r1.x, b.r1.y, b.r1.z; b.r2.x, b.r2.y, b.r2.z]
  have hd : m.det = 0 := by
    rw [Matrix.det_fin_three, ← h]
    unfold M3.det V3.dot V3.cross
    simp [m]
    ring
  obtain ⟨w, hw, hm⟩ := Matrix.exists_mulVec_eq_zero_iff.2 hd
  refine ⟨⟨w 0, w 1, w 2⟩, ?_, ?_⟩
  · intro e
    apply hw
    funext i
    have ex := congrArg V3.x e
    have ey := congrArg V3.y e
    have ez := congrArg V3.z e
    fin_cases i
    · exact ex
    · exact ey
    · exact ez
  · have h0 := congrFun hm 0
    have h1 := congrFun hm 1
    have h2 := congrFun hm 2
    simp [m, Matrix.mulVec, dotProduct, Fin.sum_univ_three] at h0 h1 h2
    unfold M3.mulVec V3.dot
    ext
    · simpa using h0
    · simpa using h1
    · simpa using h2

/-- The norm by which the constructor divides. -/
noncomputable def topNorm (s : V3) : ℝ := Real.sqrt (s.x * s.x + s.y * s.y)

theorem fundamental_scale {u v : M3} {s : V3} (hs : 0 < topNorm s) :
    (fundamentalOfSVD u s v).scale (topNorm s) = (u.mul (diag s.x s.y 0)).mul v.transpose := by
  have hn : (⟨s.x, s.y, 0⟩ : V3).norm = topNorm s := by
    unfold V3.norm topNorm V3.dot
    simp
  unfold fundamentalOfSVD
  simp only [hn]
  rw [← (scale_mul _ _ _).1, ← (scale_mul _ _ _).2]
  congr 2
  unfold M3.scale diag V3.div
  ext <;> simp <;> field_simp

/-- C110: the matrix constructed from a non-zero matrix is singular, of Frobenius norm one, and, up to its scale, a closest
    singular matrix to the argument; if the argument is singular already it is the argument divided by its norm. -/
theorem C110_fundamental {a u v : M3} {s : V3} (h : IsSVD a u s v) (ha : a.frob ≠ 0) :
    (fundamentalOfSVD u s v).det = 0 ∧ (fundamentalOfSVD u s v).frob = 1 ∧
    (∀ b : M3, b.det = 0 → (a.sub ((fundamentalOfSVD u s v).scale (topNorm s))).frob ≤ (a.sub b).frob) ∧
    (a.det = 0 → a = (fundamentalOfSVD u s v).scale (Real.sqrt a.frob)) := by
  have haf : a.frob = s.x * s.x + s.y * s.y + s.z * s.z := by
    rw [h.eq, frob_orth h.uo h.vo]
    unfold diag M3.frob M3.inner V3.dot
    simp
  have hx : 0 < s.x := by
    have o1 := h.ord.1
    have o2 := h.ord.2
    have o3 := h.nonneg
    rcases lt_or_eq_of_le (le_trans o3 (le_trans o1 o2)) with hlt | heq
    · exact hlt
    · exfalso
      apply ha
      have hy : s.y = 0 := by linarith
      have hz : s.z = 0 := by linarith
      rw [haf, ← heq, hy, hz]
      ring
  have hpos : 0 < s.x * s.x + s.y * s.y := by nlinarith [mul_self_nonneg s.y]
  have hn : 0 < topNorm s := Real.sqrt_pos.2 hpos
  have hnn : topNorm s * topNorm s = s.x * s.x + s.y * s.y := Real.mul_self_sqrt hpos.le
  have hsc := fundamental_scale (u := u) (v := v) hn
  refine ⟨?_, ?_, ?_, ?_⟩
  · have := congrArg M3.det hsc
    rw [scale_det, det_mul, det_mul] at this
    have hd0 : (diag s.x s.y 0).det = 0 := by
      unfold diag M3.det V3.cross V3.dot
      simp
    rw [hd0, mul_zero, zero_mul] at this
    rcases mul_eq_zero.1 this with h0 | h0
    · exact absurd h0 (by positivity)
    · exact h0
  · have e : ∀ (g : ℝ) (m : M3), (m.scale g).frob = g * g * m.frob := by
      intro g m
      unfold M3.scale M3.frob M3.inner V3.dot
      simp only [V3.smul_x, V3.smul_y, V3.smul_z]
      ring
    have := congrArg M3.frob hsc
    rw [e, frob_orth h.uo h.vo, hnn] at this
    have hd : (diag s.x s.y 0).frob = s.x * s.x + s.y * s.y := by
      unfold diag M3.frob M3.inner V3.dot
      simp
    rw [hd] at this
    exact mul_left_cancel₀ hpos.ne' (by rw [this, mul_one])
  · intro b hb
    rw [hsc]
    -- the distance of the truncation
    have hdist : (a.sub ((u.mul (diag s.x s.y 0)).mul v.transpose)).frob = s.z * s.z := by
      have : a.sub ((u.mul (diag s.x s.y 0)).mul v.transpose) = (u.mul (diag 0 0 s.z)).mul v.transpose := by
        rw [h.eq]
        unfold M3.sub M3.mul M3.transpose diag V3.dot
        ext <;> simp only [V3.sub_x, V3.sub_y, V3.sub_z] <;> ring
      rw [this, frob_orth h.uo h.vo]
      unfold diag M3.frob M3.inner V3.dot
      simp
    rw [hdist]
    obtain ⟨x, hx0, hbx⟩ := exists_kernel hb
    have hxx : 0 < x.dot x := by
      rcases lt_or_eq_of_le x.dot_self_nonneg with hlt | heq
      · exact hlt
      · exact absurd (V3.dot_self_eq_zero heq.symm) hx0
    have hcs : ∀ c : M3, (c.mulVec x).dot (c.mulVec x) ≤ c.frob * x.dot x := by
      intro c
      have cs : ∀ p q : V3, p.dot q * p.dot q ≤ p.dot p * q.dot q := by
        intro p q
        have : p.dot p * q.dot q - p.dot q * p.dot q = (p.cross q).dot (p.cross q) := by
          unfold V3.cross V3.dot
          ring
        have := (p.cross q).dot_self_nonneg
        linarith
      have h0 := cs c.r0 x
      have h1 := cs c.r1 x
      have h2 := cs c.r2 x
      unfold M3.mulVec M3.frob M3.inner
      have : ∀ p q r : ℝ, (⟨p, q, r⟩ : V3).dot ⟨p, q, r⟩ = p * p + q * q + r * r := fun _ _ _ => rfl
      rw [this]
      nlinarith
    have hax : (a.sub b).mulVec x = a.mulVec x := by
      have hx := congrArg V3.x hbx
      have hy := congrArg V3.y hbx
      have hz := congrArg V3.z hbx
      unfold M3.mulVec V3.dot at hx hy hz
      simp only [V3.zero_x, V3.zero_y, V3.zero_z] at hx hy hz
      unfold M3.sub M3.mulVec V3.dot
      ext <;> simp only [V3.sub_x, V3.sub_y, V3.sub_z]
      · linear_combination -hx
      · linear_combination -hy
      · linear_combination -hz
    have hlow : s.z * s.z * x.dot x ≤ (a.mulVec x).dot (a.mulVec x) := by
      rw [h.eq, mulVec_mul, mulVec_mul, orth_dot h.uo, ← orth_dot (orth_transpose h.vo) x x]
      generalize v.transpose.mulVec x = y
      have e : (diag s.x s.y s.z).mulVec y = ⟨s.x * y.x, s.y * y.y, s.z * y.z⟩ := by
        unfold diag M3.mulVec V3.dot
        ext <;> simp
      rw [e]
      unfold V3.dot
      simp only
      have o1 := h.ord.1
      have o2 := h.ord.2
      have o3 := h.nonneg
      have a1 : s.z * s.z ≤ s.x * s.x := mul_self_le_mul_self o3 (le_trans o1 o2)
      have a2 : s.z * s.z ≤ s.y * s.y := mul_self_le_mul_self o3 o1
      nlinarith [mul_le_mul_of_nonneg_right a1 (mul_self_nonneg y.x), mul_le_mul_of_nonneg_right a2 (mul_self_nonneg y.y)]
    have := hcs (a.sub b)
    rw [hax] at this
    have h4 := le_trans hlow this
    exact le_of_mul_le_mul_right h4 hxx
  · intro hdet
    have hz : s.z = 0 := by
      rw [h.eq, det_mul, det_mul, det_transpose] at hdet
      have hd : (diag s.x s.y s.z).det = s.x * s.y * s.z := by
        unfold diag M3.det V3.cross V3.dot
        simp
        ring
      rw [hd] at hdet
      have hu : u.det ≠ 0 := by rcases orth_det h.uo with h | h <;> rw [h] <;> norm_num
      have hv : v.det ≠ 0 := by rcases orth_det h.vo with h | h <;> rw [h] <;> norm_num
      have h5 : s.x * s.y * s.z = 0 := by
        rcases mul_eq_zero.1 hdet with h0 | h0
        · rcases mul_eq_zero.1 h0 with h0 | h0
          · exact absurd h0 hu
          · exact h0
        · exact absurd h0 hv
      rcases mul_eq_zero.1 h5 with h0 | h0
      · rcases mul_eq_zero.1 h0 with h0 | h0
        · exact absurd h0 hx.ne'
        · have := h.ord.1
          have := h.nonneg
          linarith
      · exact h0
    have hroot : Real.sqrt a.frob = topNorm s := by
      rw [haf, hz]
      unfold topNorm
      simp
    rw [hroot, hsc]
    conv_lhs => rw [h.eq, hz]

end Vital.Geo
