import Verif.Geo.Homography
import Verif.Geo.Intrinsics
/- Cameras (vital/types/camera.{h,cxx}): properties C107 and C108. -/
namespace Vital.Geo
open Rotation

/-- `simple_camera`, without the covariance of its center. -/
-- models: vital/types/camera.h:235-243 (members)
structure Camera where
  center : V3
  rot : Rotation
  intr : Intr

/-- A 3x4 matrix: a 3x3 block and a last column. -/
structure M34 where
  m : M3
  t : V3

/-- The product with a homogeneous point `(p, 1)`. -/
noncomputable def M34.mulHom (p : M34) (v : V3) : V3 := p.m.mulVec v + p.t

namespace Camera

-- models: vital/types/camera.h:120-124 (default constructor)
def default : Camera := ⟨⟨0, 0, 0⟩, Rotation.identity, Intr.default⟩

-- models: vital/types/camera.h:170-171
noncomputable def translation (c : Camera) : V3 := -(c.rot.apply c.center)

-- models: vital/types/camera.h:205-208
noncomputable def setTranslation (c : Camera) (t : V3) : Camera := { c with center := -(c.rot.inverse.apply t) }

-- models: vital/types/camera.h:214
def setRotation (c : Camera) (r : Rotation) : Camera := { c with rot := r }

-- models: vital/types/camera.cxx:52-64
noncomputable def asMatrix (c : Camera) : M34 :=
  let k := c.intr.asMatrix
  ⟨k.mul c.rot.matrix, k.mulVec c.translation⟩

-- models: vital/types/camera.cxx:67-73
noncomputable def project (c : Camera) (p : V3) : V2 := c.intr.map3 (c.rot.apply (p - c.center))

-- models: vital/types/camera.cxx:76-82
noncomputable def depth (c : Camera) (p : V3) : ℝ := (c.rot.apply (p - c.center)).z

-- models: vital/types/camera.cxx:109-142 (look_at; the warning is not modelled)
noncomputable def lookAt (c : Camera) (stare upDir : V3) : Camera :=
  let up := upDir.normalized
  let z := (stare - c.center).normalized
  let x := -(up.cross z)
  let xMag := x.norm
  let x := x.div xMag
  let y := (z.cross x).normalized
  c.setRotation (Rotation.ofMatrix ⟨x, y, z⟩)

end Camera

open Camera

theorem apply_linear (r : Rotation) (a b : V3) (s : ℝ) :
    r.apply (a + b) = r.apply a + r.apply b ∧ r.apply (a - b) = r.apply a - r.apply b ∧ r.apply (-a) = -(r.apply a) ∧ r.apply (s • a) = s • r.apply a := by
  unfold Rotation.apply Quat.rotate Quat.vec V3.cross
  refine ⟨?_, ?_, ?_, ?_⟩ <;> ext <;>
    simp only [V3.add_x, V3.add_y, V3.add_z, V3.sub_x, V3.sub_y, V3.sub_z, V3.neg_x, V3.neg_y, V3.neg_z, V3.smul_x, V3.smul_y, V3.smul_z] <;> ring

/-! ### C107 -/

/-- C107: center and translation describe the same camera: moving a point into the camera frame by `R p + t` is `R (p - center)`;
    the center has camera coordinates zero; setting one and reading it back gives it, and setting the translation read leaves
    the camera unchanged. -/
theorem C107_translation (c : Camera) (p : V3) :
    c.rot.apply p + c.translation = c.rot.apply (p - c.center) ∧ c.rot.apply c.center + c.translation = 0 ∧
    (c.rot.Unit → (∀ t, (c.setTranslation t).translation = t) ∧ c.setTranslation c.translation = c) := by
  refine ⟨?_, ?_, ?_⟩
  · rw [(apply_linear c.rot p c.center 0).2.1]
    unfold Camera.translation
    ext <;> simp only [V3.add_x, V3.add_y, V3.add_z, V3.sub_x, V3.sub_y, V3.sub_z, V3.neg_x, V3.neg_y, V3.neg_z] <;> ring
  · unfold Camera.translation
    ext <;> simp
  · intro hu
    constructor
    · intro t
      unfold Camera.setTranslation Camera.translation
      simp only
      rw [(apply_linear c.rot (c.rot.inverse.apply t) 0 0).2.2.1, (C100_inverse hu t).2]
      ext <;> simp
    · unfold Camera.setTranslation Camera.translation
      rw [(apply_linear c.rot.inverse (c.rot.apply c.center) 0 0).2.2.1, (C100_inverse hu c.center).1]
      have : - -c.center = c.center := by ext <;> simp
      rw [this]

/-- C107: the projection matrix. Its product with `(p, 1)` has the depth as third coordinate and, when the lens has no distortion
    and the depth is not zero, is the depth times the homogeneous image point. -/
theorem C107_matrix (c : Camera) (p : V3) :
    (c.asMatrix.mulHom p).z = c.depth p ∧
    (NoDistortion c.intr.d → c.depth p ≠ 0 → c.asMatrix.mulHom p = c.depth p • (⟨(c.project p).x, (c.project p).y, 1⟩ : V3)) := by
  have h : c.asMatrix.mulHom p = c.intr.asMatrix.mulVec (c.rot.apply (p - c.center)) := by
    unfold M34.mulHom Camera.asMatrix
    simp only
    rw [mulVec_mul, C100_matrix, ← (C107_translation c p).1]
    unfold M3.mulVec V3.dot
    ext <;> simp only [V3.add_x, V3.add_y, V3.add_z] <;> ring
  rw [h]
  constructor
  · unfold Intr.asMatrix M3.mulVec V3.dot Camera.depth
    simp
  · intro hd hz
    unfold Camera.project Intr.map3 Intr.map
    rw [distort_none hd]
    unfold Camera.depth at *
    generalize c.rot.apply (p - c.center) = v at *
    unfold Intr.asMatrix M3.mulVec V3.dot
    ext <;> simp only [V3.smul_x, V3.smul_y, V3.smul_z] <;> field_simp <;> ring

/-- C107: the image of a point depends only on the line from the center to the point, and the depth grows linearly along it. -/
theorem C107_rays (c : Camera) (v : V3) (s : ℝ) :
    (s ≠ 0 → c.project (c.center + s • v) = c.project (c.center + v)) ∧ c.depth (c.center + s • v) = s * c.depth (c.center + v) ∧
    c.depth c.center = 0 := by
  have e : ∀ w : V3, c.center + w - c.center = w := by
    intro w
    ext <;> simp
  refine ⟨?_, ?_, ?_⟩
  · intro hs
    unfold Camera.project
    rw [e, e, (apply_linear c.rot v 0 s).2.2.2]
    exact (C60_matrix c.intr ⟨0, 0⟩).2.1 _ s hs
  · unfold Camera.depth
    rw [e, e, (apply_linear c.rot v 0 s).2.2.2]
    rfl
  · unfold Camera.depth
    have : c.center - c.center = (0 : ℝ) • c.center := by ext <;> simp
    rw [this, (apply_linear c.rot c.center 0 0).2.2.2]
    simp

/-! ### C108 -/

theorem orthonormal_rotation {x y z : V3} (hx : x.dot x = 1) (hz : z.dot z = 1) (hxz : x.dot z = 0) (hy : y = z.cross x) :
    (⟨x, y, z⟩ : M3).IsRotation := by
  subst hy
  constructor
  · unfold M3.mul M3.transpose M3.one
    simp only [V3.dot, V3.cross] at *
    ext <;> simp only
    · exact hx
    · ring
    · exact hxz
    · ring
    · linear_combination (z.x * z.x + z.y * z.y + z.z * z.z) * hx + hz - (x.x * z.x + x.y * z.y + x.z * z.z) * hxz
    · ring
    · linear_combination hxz
    · ring
    · exact hz
  · unfold M3.det
    simp only [V3.dot, V3.cross] at *
    linear_combination (z.x * z.x + z.y * z.y + z.z * z.z) * hx + hz - (x.x * z.x + x.y * z.y + x.z * z.z) * hxz

theorem div_dot (a b : V3) (s : ℝ) : (a.div s).dot b = a.dot b / s := by
  unfold V3.div V3.dot
  simp only
  ring

/-- C108: after `look_at` the camera holds a proper rotation and has not moved; the stare point lies on the optical axis at the depth
    that is its distance from the center; and the up direction has no component to the right of the image and points up in it
    (image rows grow downwards). For a stare point other than the center and an up direction that is not parallel to the view. -/
theorem C108_look_at (c : Camera) (stare up : V3) (h : up.cross (stare - c.center) ≠ 0) :
    (c.lookAt stare up).rot.Unit ∧ (c.lookAt stare up).center = c.center ∧
    (c.lookAt stare up).rot.apply (stare - c.center) = ⟨0, 0, (stare - c.center).norm⟩ ∧
    (c.lookAt stare up).depth stare = (stare - c.center).norm ∧ 0 < (c.lookAt stare up).depth stare ∧
    ((c.lookAt stare up).rot.apply up).x = 0 ∧ ((c.lookAt stare up).rot.apply up).y < 0 := by
  generalize hw : stare - c.center = w at *
  have hu0 : up ≠ 0 := by
    rintro rfl
    exact h (by unfold V3.cross; ext <;> simp)
  have hw0 : w ≠ 0 := by
    rintro rfl
    exact h (by unfold V3.cross; ext <;> simp)
  have hun := V3.norm_pos hu0
  have hwn := V3.norm_pos hw0
  have huu := V3.normalized_dot hu0
  have hww := V3.normalized_dot hw0
  have hup : up = up.norm • up.normalized := by
    rw [V3.normalized_of_ne hu0]
    unfold V3.div
    ext <;> simp only [V3.smul_x, V3.smul_y, V3.smul_z] <;> field_simp
  have hwp : w = w.norm • w.normalized := by
    rw [V3.normalized_of_ne hw0]
    unfold V3.div
    ext <;> simp only [V3.smul_x, V3.smul_y, V3.smul_z] <;> field_simp
  have hX : -(up.normalized.cross w.normalized) ≠ 0 := by
    intro e
    apply h
    rw [hup, hwp]
    have e' := e
    unfold V3.cross at *
    have ex := congrArg V3.x e'
    have ey := congrArg V3.y e'
    have ez := congrArg V3.z e'
    simp only [V3.neg_x, V3.neg_y, V3.neg_z, V3.zero_x, V3.zero_y, V3.zero_z] at ex ey ez
    ext <;> simp only [V3.smul_x, V3.smul_y, V3.smul_z, V3.zero_x, V3.zero_y, V3.zero_z]
    · linear_combination (-(up.norm * w.norm)) * ex
    · linear_combination (-(up.norm * w.norm)) * ey
    · linear_combination (-(up.norm * w.norm)) * ez
  generalize hU : up.normalized = U at *
  generalize hZ : w.normalized = Z at *
  have hXn := V3.norm_pos hX
  have hXs := V3.norm_sq (-(U.cross Z))
  generalize hN : (-(U.cross Z)).norm = N at *
  have hxx : ((-(U.cross Z)).div N).dot ((-(U.cross Z)).div N) = 1 := by
    rw [div_dot, show (-(U.cross Z)).dot ((-(U.cross Z)).div N) = ((-(U.cross Z)).div N).dot (-(U.cross Z)) by unfold V3.dot; ring, div_dot, ← hXs]
    field_simp
  have hxz : ((-(U.cross Z)).div N).dot Z = 0 := by
    rw [div_dot]
    have : (-(U.cross Z)).dot Z = 0 := by
      unfold V3.dot V3.cross
      simp only [V3.neg_x, V3.neg_y, V3.neg_z]
      ring
    rw [this, zero_div]
  have hxu : ((-(U.cross Z)).div N).dot U = 0 := by
    rw [div_dot]
    have : (-(U.cross Z)).dot U = 0 := by
      unfold V3.dot V3.cross
      simp only [V3.neg_x, V3.neg_y, V3.neg_z]
      ring
    rw [this, zero_div]
  have hyu : (Z.cross ((-(U.cross Z)).div N)).dot U = -N := by
    have : (Z.cross ((-(U.cross Z)).div N)).dot U = -((-(U.cross Z)).dot (-(U.cross Z))) / N := by
      unfold V3.div V3.dot V3.cross
      simp only [V3.neg_x, V3.neg_y, V3.neg_z]
      ring
    rw [this, ← hXs]
    field_simp
  have hyy : (Z.cross ((-(U.cross Z)).div N)).dot (Z.cross ((-(U.cross Z)).div N)) = 1 := by
    have e : ∀ a b : V3, (a.cross b).dot (a.cross b) = a.dot a * b.dot b - b.dot a * b.dot a := by
      intro a b
      unfold V3.cross V3.dot
      ring
    rw [e, hww, hxx, hxz]
    ring
  have hrot : (c.lookAt stare up).rot = Rotation.ofMatrix ⟨(-(U.cross Z)).div N, Z.cross ((-(U.cross Z)).div N), Z⟩ := by
    unfold Camera.lookAt Camera.setRotation
    simp only
    rw [hw, hU, hZ, hN, normalized_unit hyy]
  have hR := orthonormal_rotation hxx hww hxz rfl
  obtain ⟨-, hunit, happ⟩ := C101_from_matrix hR
  have hcen : (c.lookAt stare up).center = c.center := rfl
  have hmw : (c.lookAt stare up).rot.apply w = ⟨0, 0, w.norm⟩ := by
    rw [hrot, happ]
    rw [hwp]
    have hnn : (w.norm • Z).norm = w.norm := by rw [← hwp]
    rw [hnn, mulVec_smul]
    unfold M3.mulVec
    have hyz : (Z.cross ((-(U.cross Z)).div N)).dot Z = 0 := by
      unfold V3.cross V3.dot
      ring
    simp only [hxz, hyz, hww]
    ext <;> simp
  have hdep : (c.lookAt stare up).depth stare = w.norm := by
    unfold Camera.depth
    rw [hcen, hw, hmw]
  refine ⟨by rw [hrot]; exact hunit, hcen, hmw, hdep, by rw [hdep]; exact hwn, ?_, ?_⟩
  · rw [hrot, happ, hup, mulVec_smul]
    simp only [V3.smul_x, M3.mulVec, hxu, mul_zero]
  · rw [hrot, happ, hup, mulVec_smul]
    simp only [V3.smul_y, M3.mulVec, hyu]
    nlinarith

/-- Looking along the x axis with z up. -/
example : ((⟨0, 0, 1⟩ : V3).cross (⟨5, 0, 0⟩ - Camera.default.center)) ≠ 0 := by
  intro e
  have := congrArg V3.y e
  simp [V3.cross, Camera.default] at this

end Vital.Geo
