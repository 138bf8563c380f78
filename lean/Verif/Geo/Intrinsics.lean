import Verif.Geo.Basic
import Mathlib.Analysis.Calculus.Deriv.Add
import Mathlib.Analysis.Calculus.Deriv.Mul
import Mathlib.Analysis.Calculus.Deriv.Inv
import Mathlib.Analysis.Calculus.Deriv.Comp
/- Camera intrinsics (vital/types/camera_intrinsics.{h,cxx}): properties C60, C61 and C112. -/
namespace Vital.Geo

/-- A 2x2 matrix by its entries, row by row. -/
-- models: vital/types/matrix.h (matrix_2x2d)
@[ext] structure M2 where
  a : ℝ
  b : ℝ
  c : ℝ
  d : ℝ

noncomputable def M2.mulVec (m : M2) (v : V2) : V2 := ⟨m.a * v.x + m.b * v.y, m.c * v.x + m.d * v.y⟩

/-- `simple_camera_intrinsics`: its members; `d` are the distortion coefficients. -/
-- models: vital/types/camera_intrinsics.h:214-224
@[ext] structure Intr where
  f : ℝ
  pp : V2
  aspect : ℝ
  skew : ℝ
  d : List ℝ

namespace Intr

-- models: vital/types/camera_intrinsics.h:118-124 (default constructor)
def default : Intr := ⟨1, ⟨0, 0⟩, 1, 0, []⟩

-- models: vital/types/camera_intrinsics.cxx:48-60
noncomputable def asMatrix (k : Intr) : M3 := ⟨⟨k.f, k.skew, k.pp.x⟩, ⟨0, k.f / k.aspect, k.pp.y⟩, ⟨0, 0, 1⟩⟩

-- models: vital/types/camera_intrinsics.cxx:230-240 (constructor from a calibration matrix)
noncomputable def ofMatrix (m : M3) (d : List ℝ) : Intr := ⟨m.r0.x, ⟨m.r0.z, m.r1.z⟩, m.r0.x / m.r1.y, m.r0.y, d⟩

/-- A coefficient; only used below the length. -/
def coef (d : List ℝ) (i : Nat) : ℝ := d.getD i 0

-- models: vital/types/camera_intrinsics.cxx:110-139 (radial_distortion_scale)
noncomputable def radialScale (d : List ℝ) (r2 : ℝ) : ℝ :=
  if 0 < d.length then
    let scale := 1 + r2 * coef d 0
    if 1 < d.length then
      let r4 := r2 * r2
      let scale := scale + r4 * coef d 1
      if 4 < d.length then
        let r6 := r2 * r4
        let scale := scale + r6 * coef d 4
        if 7 < d.length then scale / (1 + r2 * coef d 5 + r4 * coef d 6 + r6 * coef d 7)
        else scale
      else scale
    else scale
  else 1

-- models: vital/types/camera_intrinsics.cxx:142-166 (distortion_scale_offset, the offset)
noncomputable def offset (d : List ℝ) (p : V2) : V2 :=
  let x2 := p.x * p.x
  let y2 := p.y * p.y
  let r2 := x2 + y2
  if 3 < d.length then
    let two_xy := 2 * p.x * p.y
    ⟨coef d 2 * two_xy + coef d 3 * (r2 + 2 * x2), coef d 3 * two_xy + coef d 2 * (r2 + 2 * y2)⟩
  else ⟨0, 0⟩

-- models: vital/types/camera_intrinsics.cxx:142-166, 243-253 (distortion_scale_offset, distort)
noncomputable def distort (d : List ℝ) (p : V2) : V2 :=
  let scale := radialScale d (p.x * p.x + p.y * p.y)
  ⟨scale * p.x + (offset d p).x, scale * p.y + (offset d p).y⟩

-- models: vital/types/camera_intrinsics.cxx:169-199 (radial_distortion_deriv)
noncomputable def radialDeriv (d : List ℝ) (r2 : ℝ) : ℝ :=
  if 0 < d.length then
    let deriv := coef d 0
    if 1 < d.length then
      let deriv := deriv + 2 * coef d 1 * r2
      if 4 < d.length then
        let r4 := r2 * r2
        let deriv := deriv + 3 * coef d 4 * r4
        if 7 < d.length then
          let r6 := r4 * r2
          let a1 := 1 / (coef d 5 * r2 + coef d 6 * r4 + coef d 7 * r6 + 1)
          let a2 := coef d 5 + 2 * coef d 6 * r2 + 3 * coef d 7 * r4
          let deriv := deriv - a2 * a1 * (coef d 0 * r2 + coef d 1 * r4 + coef d 4 * r6 + 1)
          deriv * a1
        else deriv
      else deriv
    else deriv
  else 0

-- models: vital/types/camera_intrinsics.cxx:202-228 (distortion_jacobian)
noncomputable def jacobian (d : List ℝ) (p : V2) : M2 :=
  let x2 := p.x * p.x
  let y2 := p.y * p.y
  let xy := p.x * p.y
  let r2 := x2 + y2
  let dScale := 2 * radialDeriv d r2
  let scale := radialScale d r2
  let j : M2 := ⟨dScale * x2 + scale, dScale * xy, dScale * xy, dScale * y2 + scale⟩
  if 3 < d.length then
    let axy := 2 * (coef d 2 * p.x + coef d 3 * p.y)
    let ay := 2 * coef d 2 * p.y
    let ax := 2 * coef d 3 * p.x
    ⟨j.a + (ay + 3 * ax) + (3 * ay + ax), j.b + axy, j.c + axy, j.d⟩
  else j

/-- The loop of `undistort` with `n` iterations left. `solve` is `J.ldlt().solve`. -/
-- models: vital/types/camera_intrinsics.cxx:266-283
noncomputable def undistortLoop (solve : M2 → V2 → V2) (d : List ℝ) (q : V2) : Nat → V2 → V2
  | 0, p => p
  | n + 1, p =>
    let res : V2 := ⟨(distort d p).x - q.x, (distort d p).y - q.y⟩
    open Classical in
    if max |res.x| |res.y| < 1e-12 then p
    else
      let s := solve (jacobian d p) res
      undistortLoop solve d q n ⟨p.x - s.x, p.y - s.y⟩

-- models: vital/types/camera_intrinsics.cxx:256-285 (undistort)
noncomputable def undistort (solve : M2 → V2 → V2) (d : List ℝ) (q : V2) : V2 := undistortLoop solve d q 5 q

-- models: vital/types/camera_intrinsics.cxx:63-76 (map of a normalized point)
noncomputable def map (k : Intr) (p : V2) : V2 :=
  let pt := distort k.d p
  ⟨pt.x * k.f + pt.y * k.skew + k.pp.x, pt.y * k.f / k.aspect + k.pp.y⟩

-- models: vital/types/camera_intrinsics.cxx:79-86 (map of a point in camera coordinates)
noncomputable def map3 (k : Intr) (v : V3) : V2 := k.map ⟨v.x / v.z, v.y / v.z⟩

-- models: vital/types/camera_intrinsics.cxx:89-100
noncomputable def unmap (solve : M2 → V2 → V2) (k : Intr) (p : V2) : V2 :=
  let p0x := p.x - k.pp.x
  let p0y := p.y - k.pp.y
  let y := p0y * k.aspect / k.f
  let x := (p0x - y * k.skew) / k.f
  undistort solve k.d ⟨x, y⟩

end Intr

open Intr

/-! ### C60 -/

/-- Distortion has no effect: no coefficients, or all of them zero. -/
def NoDistortion (d : List ℝ) : Prop := ∀ c ∈ d, c = 0

theorem coef_zero {d : List ℝ} (h : NoDistortion d) (i : Nat) : coef d i = 0 := by
  unfold coef
  rw [List.getD_eq_getElem?_getD]
  cases hi : d[i]? with
  | none => rfl
  | some c => exact h c (List.mem_of_getElem? hi)

theorem distort_none {d : List ℝ} (h : NoDistortion d) (p : V2) : distort d p = p := by
  unfold distort radialScale offset
  simp [coef_zero h]

theorem undistort_fix (solve : M2 → V2 → V2) {d : List ℝ} {q : V2} (h : distort d q = q) : undistort solve d q = q := by
  unfold undistort undistortLoop
  simp only [h, sub_self, abs_zero, max_self]
  rw [if_pos (by norm_num)]

/-- C60: with any coefficients the calibration cancels, so that `unmap(map(p))` is `undistort(distort(p))` and the other way round. -/
theorem C60_calibration {k : Intr} (hf : k.f ≠ 0) (ha : k.aspect ≠ 0) (solve : M2 → V2 → V2) (p : V2) :
    k.unmap solve (k.map p) = undistort solve k.d (distort k.d p) ∧
    ∀ q, distort k.d (k.unmap solve p) = q → k.map (k.unmap solve p) = ⟨q.x * k.f + q.y * k.skew + k.pp.x, q.y * k.f / k.aspect + k.pp.y⟩ := by
  constructor
  · have e : (⟨((k.map p).x - k.pp.x - ((k.map p).y - k.pp.y) * k.aspect / k.f * k.skew) / k.f, ((k.map p).y - k.pp.y) * k.aspect / k.f⟩ : V2) = distort k.d p := by
      unfold Intr.map
      ext <;> simp only <;> field_simp <;> ring
    unfold Intr.unmap
    simp only [e]
  · intro q hq
    unfold Intr.map
    rw [hq]

/-- C60: without distortion the two are inverse to each other. -/
theorem C60_unmap_map {k : Intr} (hd : NoDistortion k.d) (hf : k.f ≠ 0) (ha : k.aspect ≠ 0) (solve : M2 → V2 → V2) (p : V2) :
    k.unmap solve (k.map p) = p ∧ k.map (k.unmap solve p) = p := by
  constructor
  · rw [(C60_calibration hf ha solve p).1, distort_none hd, undistort_fix solve (distort_none hd p)]
  · unfold Intr.map Intr.unmap
    simp only [distort_none hd, undistort_fix solve (distort_none hd _)]
    ext <;> simp only <;> field_simp <;> ring

/-- C60: mapping is multiplication of the distorted point by the calibration matrix, and depends only on the ray of a point in
    camera coordinates. -/
theorem C60_matrix (k : Intr) (p : V2) :
    k.asMatrix.mulVec ⟨(distort k.d p).x, (distort k.d p).y, 1⟩ = ⟨(k.map p).x, (k.map p).y, 1⟩ ∧
    (∀ (v : V3) (s : ℝ), s ≠ 0 → k.map3 (s • v) = k.map3 v) ∧ k.map3 ⟨p.x, p.y, 1⟩ = k.map p := by
  refine ⟨?_, ?_, ?_⟩
  · unfold Intr.asMatrix Intr.map M3.mulVec V3.dot
    ext <;> simp only <;> ring
  · intro v s hs
    unfold Intr.map3
    simp only [V3.smul_x, V3.smul_y, V3.smul_z]
    rw [mul_div_mul_left _ _ hs, mul_div_mul_left _ _ hs]
  · unfold Intr.map3
    simp

/-- C60: the calibration matrix and the parameters determine each other. -/
theorem C60_round_trip (k : Intr) (hf : k.f ≠ 0) (ha : k.aspect ≠ 0) : Intr.ofMatrix k.asMatrix k.d = k := by
  unfold Intr.ofMatrix Intr.asMatrix
  ext <;> simp only
  field_simp

theorem C60_matrix_round_trip (m : M3) (d : List ℝ) (h00 : m.r0.x ≠ 0) (h11 : m.r1.y ≠ 0) (h10 : m.r1.x = 0) (h2 : m.r2 = ⟨0, 0, 1⟩) :
    (Intr.ofMatrix m d).asMatrix = m := by
  unfold Intr.ofMatrix Intr.asMatrix
  rcases m with ⟨r0, r1, r2⟩
  simp only at *
  subst h2
  ext <;> simp only
  · exact h10.symm
  · field_simp

/-- A camera with skew, where mapping moves points. -/
example : (⟨2, ⟨3, 4⟩, 2, 1, []⟩ : Intr).map ⟨1, 2⟩ = ⟨7, 6⟩ ∧ NoDistortion [] ∧ NoDistortion [0, 0, 0, 0, 0] := by
  refine ⟨?_, by simp [NoDistortion], by simp [NoDistortion]⟩
  unfold Intr.map
  rw [distort_none (by simp [NoDistortion])]
  ext <;> norm_num

/-! ### C61 -/

/-- The matrix of partial derivatives of a map of the plane at a point. -/
def IsJacobian (F : V2 → V2) (p : V2) (j : M2) : Prop :=
  HasDerivAt (fun t => (F ⟨t, p.y⟩).x) j.a p.x ∧ HasDerivAt (fun t => (F ⟨p.x, t⟩).x) j.b p.y ∧
  HasDerivAt (fun t => (F ⟨t, p.y⟩).y) j.c p.x ∧ HasDerivAt (fun t => (F ⟨p.x, t⟩).y) j.d p.y

/-- The distortion is defined at a squared radius: the denominator of the rational model is not zero. -/
def Defined (d : List ℝ) (r2 : ℝ) : Prop := 7 < d.length → 1 + r2 * coef d 5 + r2 * r2 * coef d 6 + r2 * (r2 * r2) * coef d 7 ≠ 0

theorem dadd {f g : ℝ → ℝ} {a b x : ℝ} (hf : HasDerivAt f a x) (hg : HasDerivAt g b x) : HasDerivAt (fun t => f t + g t) (a + b) x :=
  HasDerivAt.add hf hg
theorem dmul {f g : ℝ → ℝ} {a b x : ℝ} (hf : HasDerivAt f a x) (hg : HasDerivAt g b x) : HasDerivAt (fun t => f t * g t) (a * g x + f x * b) x :=
  HasDerivAt.mul hf hg
theorem dconst (c x : ℝ) : HasDerivAt (fun _ : ℝ => c) 0 x := hasDerivAt_const x c
theorem did (x : ℝ) : HasDerivAt (fun t : ℝ => t) 1 x := hasDerivAt_id' x
theorem dto {f : ℝ → ℝ} {a b x : ℝ} (hf : HasDerivAt f a x) (h : a = b) : HasDerivAt f b x := h ▸ hf

theorem hasDerivAt_poly (a b c : ℝ) (r : ℝ) : HasDerivAt (fun t => 1 + t * a + t * t * b + t * (t * t) * c) (a + 2 * b * r + 3 * c * (r * r)) r :=
  dto (dadd (dadd (dadd (dconst 1 r) (dmul (did r) (dconst a r))) (dmul (dmul (did r) (did r)) (dconst b r)))
    (dmul (dmul (did r) (dmul (did r) (did r))) (dconst c r))) (by ring)

/-- The derivative of the radial scale. -/
theorem hasDerivAt_radialScale {d : List ℝ} {r : ℝ} (h : Defined d r) : HasDerivAt (radialScale d) (radialDeriv d r) r := by
  have key : ∀ F : ℝ → ℝ, (∀ t, radialScale d t = F t) → HasDerivAt F (radialDeriv d r) r → HasDerivAt (radialScale d) (radialDeriv d r) r := by
    intro F e hF
    rw [show radialScale d = F from funext e]
    exact hF
  by_cases h0 : 0 < d.length
  · by_cases h1 : 1 < d.length
    · by_cases h4 : 4 < d.length
      · by_cases h7 : 7 < d.length
        · have hd := h h7
          apply key (fun t => (1 + t * coef d 0 + t * t * coef d 1 + t * (t * t) * coef d 4) / (1 + t * coef d 5 + t * t * coef d 6 + t * (t * t) * coef d 7))
          · intro t
            simp only [radialScale, h0, h1, h4, h7, if_true]
          · have := (hasDerivAt_poly (coef d 0) (coef d 1) (coef d 4) r).div (hasDerivAt_poly (coef d 5) (coef d 6) (coef d 7) r) hd
            refine dto this ?_
            simp only [radialDeriv, h0, h1, h4, h7, if_true]
            have hd' : coef d 5 * r + coef d 6 * (r * r) + coef d 7 * (r * r * r) + 1 = 1 + r * coef d 5 + r * r * coef d 6 + r * (r * r) * coef d 7 := by ring
            rw [hd', ← sub_eq_zero]
            generalize hD : 1 + r * coef d 5 + r * r * coef d 6 + r * (r * r) * coef d 7 = D at *
            field_simp
            rw [← hD]
            ring
        · apply key (fun t => 1 + t * coef d 0 + t * t * coef d 1 + t * (t * t) * coef d 4)
          · intro t
            simp only [radialScale, h0, h1, h4, h7, if_true, if_false]
          · convert hasDerivAt_poly (coef d 0) (coef d 1) (coef d 4) r using 1
            simp only [radialDeriv, h0, h1, h4, h7, if_true, if_false]
      · apply key (fun t => 1 + t * coef d 0 + t * t * coef d 1 + t * (t * t) * 0)
        · intro t
          simp only [radialScale, h0, h1, h4, if_true, if_false]
          ring
        · convert hasDerivAt_poly (coef d 0) (coef d 1) 0 r using 1
          simp only [radialDeriv, h0, h1, h4, if_true, if_false]
          ring
    · apply key (fun t => 1 + t * coef d 0 + t * t * 0 + t * (t * t) * 0)
      · intro t
        simp only [radialScale, h0, h1, if_true, if_false]
        ring
      · convert hasDerivAt_poly (coef d 0) 0 0 r using 1
        simp only [radialDeriv, h0, h1, if_true, if_false]
        ring
  · apply key (fun t => 1 + t * 0 + t * t * 0 + t * (t * t) * 0)
    · intro t
      simp only [radialScale, h0, if_false]
      ring
    · convert hasDerivAt_poly 0 0 0 r using 1
      simp only [radialDeriv, h0, if_false]
      ring

/-- What the Jacobian would be with the last line of `distortion_jacobian` applied to the entry (1,1). -/
noncomputable def trueJacobian (d : List ℝ) (p : V2) : M2 :=
  let e := if 3 < d.length then 3 * (2 * coef d 2 * p.y) + 2 * coef d 3 * p.x else 0
  ⟨(jacobian d p).a - e, (jacobian d p).b, (jacobian d p).c, (jacobian d p).d + e⟩

theorem hasDerivAt_sq (y x : ℝ) : HasDerivAt (fun t => t * t + y) (2 * x) x := dto (dadd (dmul (did x) (did x)) (dconst y x)) (by ring)

theorem hasDerivAt_sq' (y x : ℝ) : HasDerivAt (fun t => y + t * t) (2 * x) x := dto (dadd (dconst y x) (dmul (did x) (did x))) (by ring)

/-- C61: the entries of the computed matrix, with `e = 3 * 2 d[2] y + 2 d[3] x` moved from (0,0) to (1,1), are the partial
    derivatives; for every number of coefficients and wherever the distortion is defined. -/
theorem C61_tangential (d : List ℝ) (p : V2) (h : Defined d (p.x * p.x + p.y * p.y)) : IsJacobian (distort d) p (trueJacobian d p) := by
  have hS := hasDerivAt_radialScale h
  have hx := HasDerivAt.comp p.x (h₂ := radialScale d) (h := fun t => t * t + p.y * p.y) hS (hasDerivAt_sq (p.y * p.y) p.x)
  have hy := HasDerivAt.comp p.y (h₂ := radialScale d) (h := fun t => p.x * p.x + t * t) hS (hasDerivAt_sq' (p.x * p.x) p.y)
  have ix : HasDerivAt (fun t : ℝ => t) 1 p.x := hasDerivAt_id' _
  have iy : HasDerivAt (fun t : ℝ => t) 1 p.y := hasDerivAt_id' _
  simp only [Function.comp_def] at hx hy
  unfold IsJacobian distort offset trueJacobian jacobian
  have cx := fun c => dconst c p.x
  have cy := fun c => dconst c p.y
  by_cases h3 : 3 < d.length
  · simp only [h3, if_true]
    have s1 := hasDerivAt_sq (p.y * p.y) p.x
    have s2 := hasDerivAt_sq' (p.x * p.x) p.y
    refine ⟨?_, ?_, ?_, ?_⟩
    · exact dto (dadd (dmul hx ix) (dadd (dmul (cx (coef d 2)) (dmul (dmul (cx 2) ix) (cx p.y))) (dmul (cx (coef d 3)) (dadd s1 (dmul (cx 2) (dmul ix ix)))))) (by ring)
    · exact dto (dadd (dmul hy (cy p.x)) (dadd (dmul (cy (coef d 2)) (dmul (cy (2 * p.x)) iy)) (dmul (cy (coef d 3)) (dadd s2 (cy (2 * (p.x * p.x))))))) (by ring)
    · exact dto (dadd (dmul hx (cx p.y)) (dadd (dmul (cx (coef d 3)) (dmul (dmul (cx 2) ix) (cx p.y))) (dmul (cx (coef d 2)) (dadd s1 (cx (2 * (p.y * p.y))))))) (by ring)
    · exact dto (dadd (dmul hy iy) (dadd (dmul (cy (coef d 3)) (dmul (cy (2 * p.x)) iy)) (dmul (cy (coef d 2)) (dadd s2 (dmul (cy 2) (dmul iy iy)))))) (by ring)
  · simp only [h3, if_false]
    refine ⟨?_, ?_, ?_, ?_⟩
    · exact dto (dadd (dmul hx ix) (cx 0)) (by ring)
    · exact dto (dadd (dmul hy (cy p.x)) (cy 0)) (by ring)
    · exact dto (dadd (dmul hx (cx p.y)) (cx 0)) (by ring)
    · exact dto (dadd (dmul hy iy) (cy 0)) (by ring)

/-- The full claim. -/
def C61_statement : Prop := ∀ (d : List ℝ) (p : V2), Defined d (p.x * p.x + p.y * p.y) → IsJacobian (distort d) p (jacobian d p)

/-- C61 for purely radial distortion (at most three coefficients), and wherever `3 d[2] y + d[3] x` is zero. -/
theorem C61_partial (d : List ℝ) (p : V2) (h : Defined d (p.x * p.x + p.y * p.y)) (ht : 3 < d.length → 3 * coef d 2 * p.y + coef d 3 * p.x = 0) :
    IsJacobian (distort d) p (jacobian d p) := by
  have := C61_tangential d p h
  have e : trueJacobian d p = jacobian d p := by
    unfold trueJacobian
    by_cases h3 : 3 < d.length
    · simp only [h3, if_true]
      have := ht h3
      have : 3 * (2 * coef d 2 * p.y) + 2 * coef d 3 * p.x = 0 := by linarith
      rw [this]
      ext <;> simp
    · simp only [h3, if_false]
      ext <;> simp
  rw [e] at this
  exact this

/-- It is false with tangential distortion: the last addition goes to the entry (0,0) instead of (1,1). -/
theorem C61_refuted : ¬ C61_statement := by
  intro h
  have hd : Defined [0, 0, 0, 1] ((1 : ℝ) * 1 + 0 * 0) := by intro h7; simp at h7
  have h1 := (h [0, 0, 0, 1] ⟨1, 0⟩ hd).1
  have h2 := (C61_tangential [0, 0, 0, 1] ⟨1, 0⟩ hd).1
  have := h1.unique h2
  unfold trueJacobian at this
  simp [coef] at this
  linarith

end Vital.Geo
