import Verif.Geo.Ypr
import Mathlib.Analysis.SpecialFunctions.Pow.Real
import Mathlib.Data.Matrix.Mul
import Mathlib.Tactic.FinCases
/- Similarity transformations (vital/types/similarity.{h,cxx}): properties C58 and C105. -/
namespace Vital.Geo
open Quat Rotation

-- models: vital/types/similarity.h:146-151 (members)
structure Sim where
  scale : ℝ
  rot : Rotation
  trans : V3

abbrev M4 := Matrix (Fin 4) (Fin 4) ℝ

namespace Sim

-- models: vital/types/similarity.h:60-63 (default constructor)
def identity : Sim := ⟨1, Rotation.identity, ⟨0, 0, 0⟩⟩

-- models: vital/types/similarity.cxx:105-113 (operator* of a vector)
noncomputable def apply (a : Sim) (v : V3) : V3 := a.scale • a.rot.apply v + a.trans

-- models: vital/types/similarity.cxx:92-101 (operator*, composition)
noncomputable def compose (a b : Sim) : Sim := ⟨a.scale * b.scale, a.rot.compose b.rot, a.apply b.trans⟩

-- models: vital/types/similarity.h:107-113 (inverse)
noncomputable def inverse (a : Sim) : Sim :=
  let s := 1 / a.scale
  let r := a.rot.inverse
  ⟨s, r, (-s) • r.apply a.trans⟩

-- models: vital/types/similarity.cxx:79-89 (conversion to a 4x4 matrix)
noncomputable def matrix (a : Sim) : M4 :=
  let m := a.rot.matrix
  fun i j => match i, j with
    | 0, 0 => a.scale * m.r0.x | 0, 1 => a.scale * m.r0.y | 0, 2 => a.scale * m.r0.z | 0, 3 => a.trans.x
    | 1, 0 => a.scale * m.r1.x | 1, 1 => a.scale * m.r1.y | 1, 2 => a.scale * m.r1.z | 1, 3 => a.trans.y
    | 2, 0 => a.scale * m.r2.x | 2, 1 => a.scale * m.r2.y | 2, 2 => a.scale * m.r2.z | 2, 3 => a.trans.z
    | 3, 0 => 0 | 3, 1 => 0 | 3, 2 => 0 | 3, 3 => 1

/-- Upper left 3x3 block. -/
def block (m : M4) : M3 := ⟨⟨m 0 0, m 0 1, m 0 2⟩, ⟨m 1 0, m 1 1, m 1 2⟩, ⟨m 2 0, m 2 1, m 2 2⟩⟩

/-- The constructor from a matrix; `junk` holds the members that are not initialised when the matrix is refused. -/
-- models: vital/types/similarity.cxx:46-76
noncomputable def ofMatrix (junk : Sim) (m : M4) : Sim :=
  open Classical in
  if m 3 0 ≠ 0 ∨ m 3 1 ≠ 0 ∨ m 3 2 ≠ 0 ∨ m 3 3 ≠ 1 then ⟨junk.scale, Rotation.identity, junk.trans⟩
  else if (block m).det ≤ 0 then ⟨(block m).det, Rotation.identity, junk.trans⟩
  else
    let s := (block m).det ^ (1 / 3 : ℝ)
    ⟨s, Rotation.ofMatrix ⟨(block m).r0.div s, (block m).r1.div s, (block m).r2.div s⟩, ⟨m 0 3, m 1 3, m 2 3⟩⟩

end Sim

open Sim

/-- C58: the product acts as one transformation after the other. -/
theorem C58_compose {a b : Sim} (ha : a.rot.Unit) (hb : b.rot.Unit) (v : V3) : (a.compose b).apply v = a.apply (b.apply v) := by
  unfold Sim.compose Sim.apply
  simp only
  rw [C100_compose ha hb]
  have h1 := (C100_isometry ha (b.scale • b.rot.apply v) b.trans 0).2.2.1
  have h2 := (C100_isometry ha (b.rot.apply v) 0 b.scale).2.2.2
  rw [h1, h2]
  ext <;> simp only [V3.add_x, V3.add_y, V3.add_z, V3.smul_x, V3.smul_y, V3.smul_z] <;> ring

/-- C58: the inverse undoes the transformation. -/
theorem C58_inverse {a : Sim} (ha : a.rot.Unit) (hs : a.scale ≠ 0) (v : V3) : a.inverse.apply (a.apply v) = v ∧ a.apply (a.inverse.apply v) = v := by
  have hi := unit_inverse ha
  constructor
  · unfold Sim.inverse Sim.apply
    simp only
    have h1 := (C100_isometry hi (a.scale • a.rot.apply v) a.trans 0).2.2.1
    have h2 := (C100_isometry hi (a.rot.apply v) 0 a.scale).2.2.2
    rw [h1, h2, (C100_inverse ha v).1]
    ext <;> simp only [V3.add_x, V3.add_y, V3.add_z, V3.smul_x, V3.smul_y, V3.smul_z] <;> field_simp <;> ring
  · unfold Sim.inverse Sim.apply
    simp only
    have h1 := (C100_isometry ha ((1 / a.scale) • a.rot.inverse.apply v) ((-(1 / a.scale)) • a.rot.inverse.apply a.trans) 0).2.2.1
    have h2 := (C100_isometry ha (a.rot.inverse.apply v) 0 (1 / a.scale)).2.2.2
    have h3 := (C100_isometry ha (a.rot.inverse.apply a.trans) 0 (-(1 / a.scale))).2.2.2
    rw [h1, h2, h3, (C100_inverse ha v).2, (C100_inverse ha a.trans).2]
    ext <;> simp only [V3.add_x, V3.add_y, V3.add_z, V3.smul_x, V3.smul_y, V3.smul_z] <;> field_simp <;> ring

theorem C58_unit {a b : Sim} (ha : a.rot.Unit) (hb : b.rot.Unit) : (a.compose b).rot.Unit ∧ a.inverse.rot.Unit := ⟨unit_compose ha hb, unit_inverse ha⟩

/-- C58: the similarities with unit quaternions and non-zero scale form a group. -/
theorem C58_group {a b : Sim} (c : Sim) (ha : a.rot.Unit) (hb : b.rot.Unit) :
    (a.compose b).compose c = a.compose (b.compose c) ∧ Sim.identity.compose a = a ∧ a.compose Sim.identity = a ∧
    (a.scale ≠ 0 → a.inverse.compose a = Sim.identity ∧ a.compose a.inverse = Sim.identity) := by
  refine ⟨?_, ?_, ?_, ?_⟩
  · have h1 : ((a.compose b).compose c).trans = (a.compose (b.compose c)).trans := C58_compose ha hb c.trans
    have h2 : ((a.compose b).compose c).rot = (a.compose (b.compose c)).rot := (C100_group a.rot b.rot c.rot).1
    have h3 : ((a.compose b).compose c).scale = (a.compose (b.compose c)).scale := mul_assoc _ _ _
    exact Sim.mk.injEq _ _ _ _ _ _ |>.mpr ⟨h3, h2, h1⟩
  · refine Sim.mk.injEq _ _ _ _ _ _ |>.mpr ⟨by simp [Sim.identity], (C100_group a.rot a.rot a.rot).2.1, ?_⟩
    unfold Sim.apply Sim.identity Rotation.apply Rotation.identity rotate vec V3.cross
    ext <;> simp
  · refine Sim.mk.injEq _ _ _ _ _ _ |>.mpr ⟨by simp [Sim.identity], (C100_group a.rot a.rot a.rot).2.2.1, ?_⟩
    unfold Sim.apply Sim.identity Rotation.apply rotate vec V3.cross
    ext <;> simp
  · intro hs
    constructor
    · refine Sim.mk.injEq _ _ _ _ _ _ |>.mpr ⟨by simp [Sim.inverse, hs], ((C100_group a.rot a.rot a.rot).2.2.2 ha).1, ?_⟩
      unfold Sim.apply Sim.inverse
      ext <;> simp only [V3.add_x, V3.add_y, V3.add_z, V3.smul_x, V3.smul_y, V3.smul_z] <;> ring
    · refine Sim.mk.injEq _ _ _ _ _ _ |>.mpr ⟨by simp [Sim.inverse, hs], ((C100_group a.rot a.rot a.rot).2.2.2 ha).2, ?_⟩
      unfold Sim.apply Sim.inverse
      simp only
      rw [(C100_isometry ha (a.rot.inverse.apply a.trans) 0 (-(1 / a.scale))).2.2.2, (C100_inverse ha a.trans).2]
      ext <;> simp only [V3.add_x, V3.add_y, V3.add_z, V3.smul_x, V3.smul_y, V3.smul_z] <;> field_simp <;> ring

/-- The homogeneous coordinates of a point. -/
def hom (v : V3) : Fin 4 → ℝ := ![v.x, v.y, v.z, 1]

/-- C58: the matrix applied to homogeneous coordinates does what the similarity does. -/
theorem C58_matrix_apply (a : Sim) (v : V3) : Matrix.mulVec a.matrix (hom v) = hom (a.apply v) := by
  have h := C100_matrix a.rot v
  have hx := congrArg V3.x h
  have hy := congrArg V3.y h
  have hz := congrArg V3.z h
  simp only [M3.mulVec, V3.dot] at hx hy hz
  funext i
  simp only [Matrix.mulVec, dotProduct, Fin.sum_univ_four, hom, Sim.apply]
  fin_cases i
  · simp [Sim.matrix]
    linear_combination a.scale * hx
  · simp [Sim.matrix]
    linear_combination a.scale * hy
  · simp [Sim.matrix]
    linear_combination a.scale * hz
  · simp [Sim.matrix]

/-- C58: the matrix of a product is the product of the matrices. -/
theorem C58_matrix_compose {a b : Sim} (ha : a.rot.Unit) (hb : b.rot.Unit) : (a.compose b).matrix = a.matrix * b.matrix := by
  have hm : (a.compose b).rot.matrix = a.rot.matrix.mul b.rot.matrix := C100_matrix_compose ha hb
  have h := C100_matrix a.rot b.trans
  have hx := congrArg V3.x h
  have hy := congrArg V3.y h
  have hz := congrArg V3.z h
  simp only [M3.mulVec, V3.dot] at hx hy hz
  funext i j
  rw [Matrix.mul_apply, Fin.sum_univ_four]
  fin_cases i <;> fin_cases j
  all_goals
    simp [Sim.matrix, hm, M3.mul, M3.transpose, V3.dot]
  all_goals
    simp only [Sim.compose, Sim.apply, V3.add_x, V3.add_y, V3.add_z, V3.smul_x, V3.smul_y, V3.smul_z]
  all_goals first
    | ring1
    | linear_combination (-a.scale) * hx
    | linear_combination (-a.scale) * hy
    | linear_combination (-a.scale) * hz

theorem cube_root {s : ℝ} (hs : 0 < s) : (s * s * s) ^ (1 / 3 : ℝ) = s := by
  rw [show s * s * s = s ^ (3 : ℝ) by rw [show (3 : ℝ) = ((3 : ℕ) : ℝ) by norm_num, Real.rpow_natCast]; ring]
  rw [← Real.rpow_mul hs.le]
  norm_num

/-- C105: a similarity with positive scale is recovered from its matrix: same scale, same translation, same rotation up to the
    sign of the quaternion. -/
theorem C105_partial {a : Sim} (ha : a.rot.Unit) (hs : 0 < a.scale) (junk : Sim) :
    (Sim.ofMatrix junk a.matrix).scale = a.scale ∧ (Sim.ofMatrix junk a.matrix).trans = a.trans ∧
    (Sim.ofMatrix junk a.matrix).rot.Same a.rot ∧ ∀ v, (Sim.ofMatrix junk a.matrix).apply v = a.apply v := by
  have hdet : (block a.matrix).det = a.scale * a.scale * a.scale := by
    have := (matrix_isRotation ha).det
    unfold M3.det V3.dot V3.cross at this
    unfold block M3.det V3.dot V3.cross Sim.matrix
    simp only at *
    linear_combination a.scale * a.scale * a.scale * this
  have hpos : 0 < a.scale * a.scale * a.scale := by positivity
  have hblock : (⟨(block a.matrix).r0.div a.scale, (block a.matrix).r1.div a.scale, (block a.matrix).r2.div a.scale⟩ : M3) = a.rot.matrix := by
    unfold block Sim.matrix V3.div
    ext <;> simp only <;> field_simp
  have heq : Sim.ofMatrix junk a.matrix = ⟨a.scale, Rotation.ofMatrix a.rot.matrix, a.trans⟩ := by
    unfold Sim.ofMatrix
    rw [if_neg (by simp [Sim.matrix]), hdet, if_neg (not_le.2 hpos)]
    simp only
    rw [cube_root hs, hblock]
    rfl
  rw [heq]
  refine ⟨rfl, rfl, (C101_to_matrix ha).2, ?_⟩
  intro v
  unfold Sim.apply
  simp only
  rw [(C101_to_matrix ha).2 v]

/-- The full claim: the constructor from a matrix always returns the transformation that the matrix describes, or a value that is
    determined by the matrix. -/
def C105_statement : Prop := ∀ (j k : Sim) (m : M4), Sim.ofMatrix j m = Sim.ofMatrix k m

/-- It is false: for a matrix whose last row is not (0,0,0,1) the constructor logs a warning and leaves the scale and the
    translation uninitialised. -/
theorem C105_refuted : ¬ C105_statement := by
  intro h
  have := congrArg Sim.scale (h ⟨0, Rotation.identity, 0⟩ ⟨1, Rotation.identity, 0⟩ (fun _ _ => 0))
  simp [Sim.ofMatrix] at this

/-- C105: the constructor takes a matrix exactly if its last row is (0,0,0,1) and its block has a positive determinant; otherwise nothing but the rotation (the identity)
    and, for a bad block, the scale (the determinant) is set. -/
theorem C105_refused (junk : Sim) (m : M4) :
    ((m 3 0, m 3 1, m 3 2, m 3 3) ≠ (0, 0, 0, 1) → Sim.ofMatrix junk m = ⟨junk.scale, Rotation.identity, junk.trans⟩) ∧
    ((m 3 0, m 3 1, m 3 2, m 3 3) = (0, 0, 0, 1) → (block m).det ≤ 0 → Sim.ofMatrix junk m = ⟨(block m).det, Rotation.identity, junk.trans⟩) ∧
    ((m 3 0, m 3 1, m 3 2, m 3 3) = (0, 0, 0, 1) → 0 < (block m).det →
      (Sim.ofMatrix junk m).trans = ⟨m 0 3, m 1 3, m 2 3⟩ ∧ (Sim.ofMatrix junk m).scale ^ (3 : ℕ) = (block m).det) := by
  refine ⟨?_, ?_, ?_⟩
  · intro h
    unfold Sim.ofMatrix
    rw [if_pos]
    by_contra hc
    simp only [ne_eq, not_or, not_not] at hc
    exact h (by rw [hc.1, hc.2.1, hc.2.2.1, hc.2.2.2])
  · intro h hd
    simp only [Prod.mk.injEq] at h
    unfold Sim.ofMatrix
    rw [if_neg (by simp [h]), if_pos hd]
  · intro h hd
    simp only [Prod.mk.injEq] at h
    unfold Sim.ofMatrix
    rw [if_neg (by simp [h]), if_neg (not_le.2 hd)]
    refine ⟨rfl, ?_⟩
    rw [← Real.rpow_natCast, ← Real.rpow_mul hd.le]
    norm_num

/-- A similarity that is not the identity. -/
example : ∃ a : Sim, a.rot.Unit ∧ 0 < a.scale ∧ a.apply ⟨1, 0, 0⟩ = ⟨-1, 2, 3⟩ := by
  refine ⟨⟨2, ⟨⟨0, 0, 0, 1⟩⟩, ⟨1, 2, 3⟩⟩, by simp [Rotation.Unit, sqNorm], by norm_num, ?_⟩
  unfold Sim.apply Rotation.apply rotate vec V3.cross
  ext <;> simp <;> norm_num

end Vital.Geo
