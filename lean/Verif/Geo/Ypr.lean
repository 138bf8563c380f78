import Verif.Geo.Angle
/- Properties C103 (yaw, pitch, roll) and C104 (interpolation). -/
namespace Vital.Geo
open Quat Rotation

theorem mulVec_mul (a b : M3) (v : V3) : (a.mul b).mulVec v = a.mulVec (b.mulVec v) := by
  unfold M3.mul M3.mulVec M3.transpose V3.dot
  ext <;> simp only <;> ring

theorem matrix_ext {a b : M3} (h : ∀ v, a.mulVec v = b.mulVec v) : a = b := by
  have hx := h ⟨1, 0, 0⟩
  have hy := h ⟨0, 1, 0⟩
  have hz := h ⟨0, 0, 1⟩
  simp only [M3.mulVec, V3.dot, V3.mk.injEq, mul_one, mul_zero, add_zero, zero_add] at hx hy hz
  ext
  · exact hx.1
  · exact hy.1
  · exact hz.1
  · exact hx.2.1
  · exact hy.2.1
  · exact hz.2.1
  · exact hx.2.2
  · exact hy.2.2
  · exact hz.2.2

/-- The matrix of a product is the product of the matrices. -/
theorem C100_matrix_compose {a b : Rotation} (ha : a.Unit) (hb : b.Unit) : (a.compose b).matrix = a.matrix.mul b.matrix := by
  apply matrix_ext
  intro v
  rw [mulVec_mul, C100_matrix, C100_matrix, C100_matrix, C100_compose ha hb]

/-! ### C103 -/

namespace Rotation

-- models: vital/types/rotation.cxx:96
noncomputable def ned2enu : Rotation := ⟨⟨0, 1 / Real.sqrt 2, 1 / Real.sqrt 2, 0⟩⟩
-- models: vital/types/rotation.cxx:97, 100
noncomputable def rollPart (roll : ℝ) : Rotation := ⟨⟨Real.cos (0.5 * -roll), Real.sin (0.5 * -roll), 0, 0⟩⟩
-- models: vital/types/rotation.cxx:98, 101
noncomputable def pitchPart (pitch : ℝ) : Rotation := ⟨⟨Real.cos (0.5 * -pitch), 0, Real.sin (0.5 * -pitch), 0⟩⟩
-- models: vital/types/rotation.cxx:99, 102
noncomputable def yawPart (yaw : ℝ) : Rotation := ⟨⟨Real.cos (0.5 * -yaw), 0, 0, Real.sin (0.5 * -yaw)⟩⟩

-- models: vital/types/rotation.cxx:84-104 (constructor from yaw, pitch and roll)
noncomputable def ofYpr (yaw pitch roll : ℝ) : Rotation :=
  (((rollPart roll).compose (pitchPart pitch)).compose (yawPart yaw)).compose ned2enu

-- models: vital/types/rotation.cxx:191-203 (get_yaw_pitch_roll)
noncomputable def ypr (r : Rotation) : ℝ × ℝ × ℝ :=
  let m := r.matrix
  let cosP := Real.sqrt (m.r1.z * m.r1.z + m.r2.z * m.r2.z)
  (atan2 m.r0.x m.r0.y, atan2 m.r0.z cosP, atan2 (-m.r1.z) (-m.r2.z))

end Rotation

theorem two_sq (h : ℝ) : 2 * Real.sin h * Real.sin h = 1 - Real.cos (2 * h) ∧ 2 * Real.sin h * Real.cos h = Real.sin (2 * h) := by
  refine ⟨?_, (Real.sin_two_mul h).symm⟩
  rw [Real.cos_two_mul]
  have := Real.sin_sq_add_cos_sq h
  linear_combination 2 * this

theorem roll_matrix (a : ℝ) : (rollPart a).matrix = ⟨⟨1, 0, 0⟩, ⟨0, Real.cos a, Real.sin a⟩, ⟨0, -Real.sin a, Real.cos a⟩⟩ := by
  obtain ⟨h1, h2⟩ := two_sq (0.5 * -a)
  rw [show 2 * (0.5 * -a) = -a by ring] at h1 h2
  rw [Real.cos_neg] at h1
  rw [Real.sin_neg] at h2
  unfold rollPart Rotation.matrix toMatrix
  ext <;> simp only <;> linarith

theorem pitch_matrix (a : ℝ) : (pitchPart a).matrix = ⟨⟨Real.cos a, 0, -Real.sin a⟩, ⟨0, 1, 0⟩, ⟨Real.sin a, 0, Real.cos a⟩⟩ := by
  obtain ⟨h1, h2⟩ := two_sq (0.5 * -a)
  rw [show 2 * (0.5 * -a) = -a by ring] at h1 h2
  rw [Real.cos_neg] at h1
  rw [Real.sin_neg] at h2
  unfold pitchPart Rotation.matrix toMatrix
  ext <;> simp only <;> linarith

theorem yaw_matrix (a : ℝ) : (yawPart a).matrix = ⟨⟨Real.cos a, Real.sin a, 0⟩, ⟨-Real.sin a, Real.cos a, 0⟩, ⟨0, 0, 1⟩⟩ := by
  obtain ⟨h1, h2⟩ := two_sq (0.5 * -a)
  rw [show 2 * (0.5 * -a) = -a by ring] at h1 h2
  rw [Real.cos_neg] at h1
  rw [Real.sin_neg] at h2
  unfold yawPart Rotation.matrix toMatrix
  ext <;> simp only <;> linarith

theorem inv_root_two_sq : (1 / Real.sqrt 2) * (1 / Real.sqrt 2) = 1 / 2 := by
  have h : Real.sqrt 2 * Real.sqrt 2 = 2 := Real.mul_self_sqrt (by norm_num)
  have h0 : Real.sqrt 2 ≠ 0 := by
    intro e
    rw [e] at h
    norm_num at h
  field_simp
  linarith

theorem ned2enu_matrix : ned2enu.matrix = ⟨⟨0, 1, 0⟩, ⟨1, 0, 0⟩, ⟨0, 0, -1⟩⟩ := by
  have h := inv_root_two_sq
  unfold ned2enu Rotation.matrix toMatrix
  ext <;> simp only <;> linarith

theorem parts_unit (y p r : ℝ) : (rollPart r).Unit ∧ (pitchPart p).Unit ∧ (yawPart y).Unit ∧ ned2enu.Unit := by
  unfold Rotation.Unit sqNorm rollPart pitchPart yawPart ned2enu
  have h := inv_root_two_sq
  refine ⟨?_, ?_, ?_, ?_⟩
  · simp only
    linear_combination Real.sin_sq_add_cos_sq (0.5 * -r)
  · simp only
    linear_combination Real.sin_sq_add_cos_sq (0.5 * -p)
  · simp only
    linear_combination Real.sin_sq_add_cos_sq (0.5 * -y)
  · simp only
    linarith

theorem ofYpr_unit (y p r : ℝ) : (ofYpr y p r).Unit := by
  obtain ⟨h1, h2, h3, h4⟩ := parts_unit y p r
  exact unit_compose (unit_compose (unit_compose h1 h2) h3) h4

/-- The matrix made from the three angles. -/
theorem ofYpr_matrix (y p r : ℝ) : (ofYpr y p r).matrix =
    ⟨⟨Real.cos p * Real.sin y, Real.cos p * Real.cos y, Real.sin p⟩,
     ⟨Real.cos r * Real.cos y + Real.sin r * Real.sin p * Real.sin y, -(Real.cos r * Real.sin y) + Real.sin r * Real.sin p * Real.cos y, -(Real.sin r * Real.cos p)⟩,
     ⟨-(Real.sin r * Real.cos y) + Real.cos r * Real.sin p * Real.sin y, Real.sin r * Real.sin y + Real.cos r * Real.sin p * Real.cos y, -(Real.cos r * Real.cos p)⟩⟩ := by
  obtain ⟨h1, h2, h3, h4⟩ := parts_unit y p r
  unfold ofYpr
  rw [C100_matrix_compose (unit_compose (unit_compose h1 h2) h3) h4, C100_matrix_compose (unit_compose h1 h2) h3, C100_matrix_compose h1 h2,
    roll_matrix, pitch_matrix, yaw_matrix, ned2enu_matrix]
  unfold M3.mul M3.transpose V3.dot
  ext <;> simp only <;> ring

/-- C103: yaw, pitch and roll given to the constructor are the ones reported, for pitch strictly between the poles and yaw and
    roll in (-π, π]. -/
theorem C103_from_ypr {y p r : ℝ} (hy : -Real.pi < y ∧ y ≤ Real.pi) (hp : -(Real.pi / 2) < p ∧ p < Real.pi / 2) (hr : -Real.pi < r ∧ r ≤ Real.pi) :
    (ofYpr y p r).ypr = (y, p, r) := by
  have hc : 0 < Real.cos p := Real.cos_pos_of_mem_Ioo ⟨hp.1, hp.2⟩
  unfold Rotation.ypr
  rw [ofYpr_matrix]
  simp only
  have e : Real.sqrt (-(Real.sin r * Real.cos p) * -(Real.sin r * Real.cos p) + -(Real.cos r * Real.cos p) * -(Real.cos r * Real.cos p)) = Real.cos p := by
    have : -(Real.sin r * Real.cos p) * -(Real.sin r * Real.cos p) + -(Real.cos r * Real.cos p) * -(Real.cos r * Real.cos p) = Real.cos p * Real.cos p := by
      linear_combination Real.cos p * Real.cos p * Real.sin_sq_add_cos_sq r
    rw [this, Real.sqrt_mul_self hc.le]
  rw [e]
  have h1 := atan2_of hc hy.1 hy.2
  have h2 := atan2_of (c := 1) (t := p) one_pos (by linarith [Real.pi_pos]) (by linarith [Real.pi_pos])
  rw [one_mul, one_mul] at h2
  have h3 := atan2_of hc hr.1 hr.2
  rw [h1, h2]
  rw [show - -(Real.sin r * Real.cos p) = Real.cos p * Real.sin r by ring, show - -(Real.cos r * Real.cos p) = Real.cos p * Real.cos r by ring, h3]

/-- The full claim in the other direction: every rotation is recovered from its yaw, pitch and roll. -/
def C103_statement : Prop := ∀ r : Rotation, r.Unit → (ofYpr r.ypr.1 r.ypr.2.1 r.ypr.2.2).Same r

/-- Scaled coordinates of an angle. -/
theorem atan2_polar {y x c : ℝ} (hc : 0 < c) (h : x * x + y * y = c * c) : c * Real.cos (atan2 y x) = x ∧ c * Real.sin (atan2 y x) = y := by
  have hn : ‖(⟨x, y⟩ : ℂ)‖ = c := by
    rw [Complex.norm_eq_sqrt_sq_add_sq, show x ^ 2 + y ^ 2 = c * c by linarith]
    exact Real.sqrt_mul_self hc.le
  have h0 : (⟨x, y⟩ : ℂ) ≠ 0 := by
    intro e
    rw [e] at hn
    simp at hn
    linarith
  unfold atan2
  constructor
  · rw [Complex.cos_arg h0, hn]
    field_simp
  · rw [Complex.sin_arg, hn]
    field_simp

/-- A rotation matrix is determined by its first row and last column, unless their common entry is ±1. -/
theorem rotation_matrix_unique {m k : M3} (hm : m.Rel) (hk : k.Rel) (hx : m.r0 = k.r0) (h1 : m.r1.z = k.r1.z) (h2 : m.r2.z = k.r2.z)
    (hne : m.r0.z * m.r0.z ≠ 1) : m = k := by
  have key : ∀ {n : M3}, n.Rel → n.r1.x * (1 - n.r0.z * n.r0.z) = -(n.r0.x * n.r0.z * n.r1.z + n.r2.z * n.r0.y) ∧
      n.r1.y * (1 - n.r0.z * n.r0.z) = n.r2.z * n.r0.x - n.r0.y * n.r0.z * n.r1.z ∧
      n.r2.x = n.r0.y * n.r1.z - n.r0.z * n.r1.y ∧ n.r2.y = n.r0.z * n.r1.x - n.r0.x * n.r1.z := by
    intro n hn
    have ex := congrArg V3.x hn.c1
    have ey := congrArg V3.y hn.c1
    have fx := congrArg V3.x hn.c2
    have fy := congrArg V3.y hn.c2
    simp only [V3.cross] at *
    refine ⟨?_, ?_, fx, fy⟩
    · linear_combination ex + n.r0.z * fy
    · linear_combination ey - n.r0.z * fx
  obtain ⟨a1, a2, a3, a4⟩ := key hm
  obtain ⟨b1, b2, b3, b4⟩ := key hk
  rw [← hx, ← h1, ← h2] at b1 b2
  rw [← hx, ← h1] at b3 b4
  have hd : 1 - m.r0.z * m.r0.z ≠ 0 := fun e => hne (by linarith)
  have e1 : m.r1.x = k.r1.x := mul_right_cancel₀ hd (a1.trans b1.symm)
  have e2 : m.r1.y = k.r1.y := mul_right_cancel₀ hd (a2.trans b2.symm)
  rw [← e2] at b3
  rw [← e1] at b4
  ext
  · rw [hx]
  · rw [hx]
  · rw [hx]
  · exact e1
  · exact e2
  · exact h1
  · exact a3.trans b3.symm
  · exact a4.trans b4.symm
  · exact h2

/-- C103, the other direction: a rotation is recovered from its yaw, pitch and roll unless its pitch is at a pole (the entry (0,2)
    of its matrix is ±1). -/
theorem C103_partial {r : Rotation} (h : r.Unit) (hne : r.matrix.r0.z * r.matrix.r0.z ≠ 1) :
    (ofYpr r.ypr.1 r.ypr.2.1 r.ypr.2.2).Same r := by
  have hm := rel_of_isRotation (matrix_isRotation h)
  have hk := rel_of_isRotation (matrix_isRotation (ofYpr_unit r.ypr.1 r.ypr.2.1 r.ypr.2.2))
  have r00 : r.matrix.r0.x * r.matrix.r0.x + r.matrix.r0.y * r.matrix.r0.y + r.matrix.r0.z * r.matrix.r0.z = 1 := hm.rr00
  have k22 : r.matrix.r0.z * r.matrix.r0.z + r.matrix.r1.z * r.matrix.r1.z + r.matrix.r2.z * r.matrix.r2.z = 1 := by
    have ca := congrArg V3.x hm.c0
    have cb := congrArg V3.y hm.c0
    have cf := congrArg V3.z hm.c1
    have ci := congrArg V3.z hm.c2
    simp only [V3.cross] at ca cb cf ci
    linear_combination r.matrix.r1.z * cf + r.matrix.r2.z * ci + r00 - r.matrix.r0.x * ca - r.matrix.r0.y * cb
  have hpos : 0 < r.matrix.r1.z * r.matrix.r1.z + r.matrix.r2.z * r.matrix.r2.z := by
    rcases lt_or_eq_of_le (add_nonneg (mul_self_nonneg r.matrix.r1.z) (mul_self_nonneg r.matrix.r2.z)) with hp | hp
    · exact hp
    · exact absurd (by linarith) hne
  have hC := Real.sqrt_pos.2 hpos
  have hCC := Real.mul_self_sqrt hpos.le
  obtain ⟨y1, y2⟩ := atan2_polar (y := r.matrix.r0.x) (x := r.matrix.r0.y) hC (by rw [hCC]; linarith)
  obtain ⟨p1, p2⟩ := atan2_spec (y := r.matrix.r0.z) (x := Real.sqrt (r.matrix.r1.z * r.matrix.r1.z + r.matrix.r2.z * r.matrix.r2.z)) (by rw [hCC]; linarith)
  obtain ⟨r1, r2⟩ := atan2_polar (y := -r.matrix.r1.z) (x := -r.matrix.r2.z) hC (by rw [hCC]; ring)
  have heq : (ofYpr r.ypr.1 r.ypr.2.1 r.ypr.2.2).matrix = r.matrix := by
    refine (rotation_matrix_unique hm hk ?_ ?_ ?_ hne).symm
    · rw [ofYpr_matrix]
      unfold Rotation.ypr
      simp only
      rw [p1, p2]
      ext
      · exact y2.symm
      · exact y1.symm
      · rfl
    · rw [ofYpr_matrix]
      unfold Rotation.ypr
      simp only
      rw [p1]
      linarith
    · rw [ofYpr_matrix]
      unfold Rotation.ypr
      simp only
      rw [p1]
      linarith
  intro v
  rw [← C100_matrix, ← C100_matrix, heq]

theorem atan2_zero_zero : atan2 0 0 = 0 := by
  unfold atan2
  exact Complex.arg_zero

/-- The full claim is false: looking straight up or down, yaw and roll cannot be told apart and are both reported as zero. -/
theorem C103_refuted : ¬ C103_statement := by
  intro h
  have hu := ofYpr_unit Real.pi (Real.pi / 2) 0
  have hm := ofYpr_matrix Real.pi (Real.pi / 2) 0
  simp only [Real.cos_pi_div_two, Real.sin_pi_div_two, Real.cos_pi, Real.sin_pi, Real.cos_zero, Real.sin_zero] at hm
  have hy : (ofYpr Real.pi (Real.pi / 2) 0).ypr = (0, Real.pi / 2, 0) := by
    unfold Rotation.ypr
    rw [hm]
    have h2 := atan2_of (c := 1) (t := Real.pi / 2) one_pos (by linarith [Real.pi_pos]) (by linarith [Real.pi_pos])
    simp only [Real.cos_pi_div_two, Real.sin_pi_div_two] at h2
    norm_num at h2 ⊢
    rw [atan2_zero_zero]
    exact ⟨rfl, h2, rfl⟩
  have hs := h _ hu
  rw [hy] at hs
  have h1 := hs ⟨1, 0, 0⟩
  rw [← C100_matrix, ← C100_matrix, hm, ofYpr_matrix] at h1
  have := congrArg V3.y h1
  simp [M3.mulVec, V3.dot] at this
  norm_num at this

/-! ### C104 -/

namespace Rotation

-- models: vital/types/rotation.cxx:258-267 (interpolate_rotation)
noncomputable def interpolate (a b : Rotation) (f : ℝ) : Rotation :=
  let c := a.inverse.compose b
  a.compose (ofAngleAxis (c.angle * f) c.axis)

-- models: vital/types/rotation.cxx:270-281 (interpolated_rotations)
noncomputable def interpolated (a b : Rotation) (n : Nat) (out : List Rotation) : List Rotation :=
  out ++ (List.range' 1 n).map (fun i : Nat => interpolate a b ((i : ℝ) / ((n + 1 : Nat) : ℝ)))

end Rotation

theorem normalized_unit {u : V3} (h : u.dot u = 1) : u.normalized = u := by
  unfold V3.normalized
  rw [h, V3.norm_of_dot_one h]
  simp [V3.div]

/-- Rotations about one axis add their angles. -/
theorem angleAxis_add {u : V3} (h : u.dot u = 1) (a b : ℝ) : (angleAxis a u).mul (angleAxis b u) = angleAxis (a + b) u := by
  have hc := Real.cos_add (0.5 * a) (0.5 * b)
  have hs := Real.sin_add (0.5 * a) (0.5 * b)
  unfold angleAxis mul V3.dot at *
  rw [show 0.5 * (a + b) = 0.5 * a + 0.5 * b by ring, hc, hs]
  ext <;> simp only
  · linear_combination (-(Real.sin (0.5 * a) * Real.sin (0.5 * b))) * h
  · ring
  · ring
  · ring

theorem angleAxis_inverse {u : V3} (h : u.dot u = 1) (a : ℝ) : (⟨angleAxis a u⟩ : Rotation).inverse = ⟨angleAxis (-a) u⟩ := by
  rw [inverse_of_unit (angleAxis_unit h a)]
  unfold angleAxis conj
  rw [show 0.5 * -a = -(0.5 * a) by ring, Real.cos_neg, Real.sin_neg]
  congr 1
  ext <;> simp only <;> ring

theorem interpolate_eq (a b : Rotation) (f : ℝ) :
    interpolate a b f = a.compose ⟨angleAxis ((a.inverse.compose b).angle * f) (a.inverse.compose b).axis⟩ := by
  unfold interpolate ofAngleAxis
  simp only
  rw [normalized_unit (axis_unit _)]

theorem interpolate_unit {a b : Rotation} (ha : a.Unit) (f : ℝ) : (interpolate a b f).Unit := by
  rw [interpolate_eq]
  exact unit_compose ha (angleAxis_unit (axis_unit _) _)

/-- C100: every constructor but those from a raw quaternion gives a unit quaternion, and every operation keeps it. -/
theorem C100_constructors : Rotation.identity.Unit ∧ (∀ a u, u ≠ 0 → (ofAngleAxis a u).Unit) ∧ (∀ v, (ofRodrigues v).Unit) ∧
    (∀ y p r, (ofYpr y p r).Unit) ∧ (∀ m, M3.IsRotation m → (Rotation.ofMatrix m).Unit) ∧
    ∀ a b, a.Unit → b.Unit → (a.compose b).Unit ∧ a.inverse.Unit ∧ ∀ f, (interpolate a b f).Unit := by
  refine ⟨unit_identity, fun a u hu => angleAxis_unit (V3.normalized_dot hu) a, ?_, ofYpr_unit, fun m hm => (C101_from_matrix hm).2.1,
    fun a b ha hb => ⟨unit_compose ha hb, unit_inverse ha, fun f => interpolate_unit ha f⟩⟩
  intro v
  unfold ofRodrigues
  split
  · exact unit_identity
  · rename_i h
    have hv : v ≠ 0 := fun e => h (V3.norm_eq_zero.2 e)
    rw [← V3.normalized_of_ne hv]
    exact angleAxis_unit (V3.normalized_dot hv) _

/-- C104: at fraction 0 the interpolation is the first rotation, at fraction 1 it acts as the second. -/
theorem C104_ends {a b : Rotation} (ha : a.Unit) (hb : b.Unit) : interpolate a b 0 = a ∧ (interpolate a b 1).Same b := by
  have hcu := unit_compose (unit_inverse ha) hb
  constructor
  · rw [interpolate_eq]
    have : angleAxis ((a.inverse.compose b).angle * 0) (a.inverse.compose b).axis = ⟨1, 0, 0, 0⟩ := by
      unfold angleAxis
      simp
    rw [this]
    exact (C100_group a a a).2.2.1
  · intro v
    rw [interpolate_eq, mul_one]
    have hs := (C102_angle_axis hcu).1
    unfold ofAngleAxis at hs
    rw [normalized_unit (axis_unit _)] at hs
    rw [C100_compose ha (angleAxis_unit (axis_unit _) _), hs v, C100_compose (unit_inverse ha) hb, (C100_inverse ha _).2]

/-- C104: between two fractions the interpolation turns by the proportional part of the whole angle, about the same axis. -/
theorem C104_even {a b : Rotation} (ha : a.Unit) (f g : ℝ) :
    (interpolate a b f).inverse.compose (interpolate a b g) =
      ⟨angleAxis ((a.inverse.compose b).angle * (g - f)) (a.inverse.compose b).axis⟩ := by
  have hu := axis_unit (a.inverse.compose b)
  have hfu := angleAxis_unit hu ((a.inverse.compose b).angle * f)
  rw [inverse_of_unit (interpolate_unit ha f), interpolate_eq, interpolate_eq]
  have hanti : (⟨(a.compose ⟨angleAxis ((a.inverse.compose b).angle * f) (a.inverse.compose b).axis⟩).q.conj⟩ : Rotation) =
      (⟨(angleAxis ((a.inverse.compose b).angle * f) (a.inverse.compose b).axis).conj⟩ : Rotation).compose ⟨a.q.conj⟩ := by
    unfold compose mul conj
    congr 1
    ext <;> simp only <;> ring
  rw [hanti]
  have hi : (⟨a.q.conj⟩ : Rotation) = a.inverse := (inverse_of_unit ha).symm
  have hj := angleAxis_inverse hu ((a.inverse.compose b).angle * f)
  rw [inverse_of_unit hfu] at hj
  have hj' : (⟨(angleAxis ((a.inverse.compose b).angle * f) (a.inverse.compose b).axis).conj⟩ : Rotation) =
    ⟨angleAxis (-((a.inverse.compose b).angle * f)) (a.inverse.compose b).axis⟩ := hj
  rw [hj', hi, (C100_group _ _ _).1, ← (C100_group a.inverse a _).1, ((C100_group a a a).2.2.2 ha).1, (C100_group _ a a).2.1]
  show (⟨(angleAxis (-((a.inverse.compose b).angle * f)) (a.inverse.compose b).axis).mul (angleAxis ((a.inverse.compose b).angle * g) (a.inverse.compose b).axis)⟩ : Rotation) = _
  rw [angleAxis_add hu]
  congr 2
  ring

/-- C104: `interpolated_rotations` appends `n` rotations; from `A` through them to (a rotation acting as) `B`, each step is the
    same rotation. -/
theorem C104_steps {a b : Rotation} (ha : a.Unit) (hb : b.Unit) (n : Nat) (out : List Rotation) :
    ∃ l, interpolated a b n out = out ++ l ∧ l.length = n ∧
      ∃ (last step : Rotation), last.Same b ∧ ∀ i (hi : i + 1 < (a :: l ++ [last]).length),
        ((a :: l ++ [last])[i]).inverse.compose ((a :: l ++ [last])[i + 1]) = step := by
  refine ⟨_, rfl, by simp, interpolate a b 1, ⟨angleAxis ((a.inverse.compose b).angle * (1 / ((n + 1 : Nat) : ℝ))) (a.inverse.compose b).axis⟩, (C104_ends ha hb).2, ?_⟩
  have hlist : a :: (List.range' 1 n).map (fun i : Nat => interpolate a b ((i : ℝ) / ((n + 1 : Nat) : ℝ))) ++ [interpolate a b 1] =
      (List.range' 0 (n + 2)).map (fun i : Nat => interpolate a b ((i : ℝ) / ((n + 1 : Nat) : ℝ))) := by
    rw [List.range'_succ, List.map_cons]
    have h0 : interpolate a b (((0 : Nat) : ℝ) / ((n + 1 : Nat) : ℝ)) = a := by
      rw [Nat.cast_zero, zero_div]
      exact (C104_ends ha hb).1
    rw [h0, List.range'_concat, List.map_append]
    have h1 : (((0 + 1 + 1 * n : Nat) : ℝ)) / ((n + 1 : Nat) : ℝ) = 1 := by
      rw [show 0 + 1 + 1 * n = n + 1 by omega]
      exact div_self (by positivity)
    simp only [List.map_cons, List.map_nil, List.cons_append]
    rw [h1]
  have hn : ((n + 1 : Nat) : ℝ) ≠ 0 := by positivity
  intro i hi
  have e1 := List.getElem_of_eq hlist (i := i) (by omega)
  have e2 := List.getElem_of_eq hlist (i := i + 1) hi
  rw [e1, e2]
  simp only [List.getElem_map, List.getElem_range', one_mul, zero_add]
  rw [C104_even ha]
  congr 2
  rw [div_sub_div_same]
  push_cast
  ring

end Vital.Geo
