import Verif.Geo.Intrinsics
/- Property C112: how well `undistort` inverts `distort`. -/
namespace Vital.Geo
open Intr

/-- Symmetric positive definite. -/
def M2.PosDef (m : M2) : Prop := m.b = m.c ∧ 0 < m.a ∧ 0 < m.a * m.d - m.b * m.c

/-- What is used of `J.ldlt().solve( b )`: it solves the system exactly when `J` is symmetric and positive definite (Eigen promises
    nothing more for a semidefinite or indefinite matrix). -/
def ExactSolver (solve : M2 → V2 → V2) : Prop := ∀ (m : M2) (v : V2), m.PosDef → m.mulVec (solve m v) = v

/-- Cramer's rule is such a solver. -/
theorem exactSolver_cramer :
    ExactSolver (fun m v => ⟨(m.d * v.x - m.b * v.y) / (m.a * m.d - m.b * m.c), (m.a * v.y - m.c * v.x) / (m.a * m.d - m.b * m.c)⟩) := by
  intro m v h
  have hd := h.2.2.ne'
  unfold M2.mulVec
  ext <;> simp only
  · rw [mul_div_assoc', mul_div_assoc', ← add_div, div_eq_iff hd]
    ring
  · rw [mul_div_assoc', mul_div_assoc', ← add_div, div_eq_iff hd]
    ring

example : ∃ solve, ExactSolver solve := ⟨_, exactSolver_cramer⟩

theorem posDef_unique {m : M2} (h : m.PosDef) {u v : V2} (e : m.mulVec u = m.mulVec v) : u = v := by
  have hd := h.2.2.ne'
  have ex := congrArg V2.x e
  have ey := congrArg V2.y e
  simp only [M2.mulVec] at ex ey
  ext
  · apply mul_left_cancel₀ hd
    linear_combination m.d * ex - m.b * ey
  · apply mul_left_cancel₀ hd
    linear_combination m.a * ey - m.c * ex

/-- The point `c p`. -/
noncomputable def V2.scale (c : ℝ) (p : V2) : V2 := ⟨c * p.x, c * p.y⟩

/-- The largest difference of two points in one coordinate. -/
noncomputable def V2.dist (p q : V2) : ℝ := max |p.x - q.x| |p.y - q.y|

theorem distort_radial (k c : ℝ) (p : V2) :
    distort [k] (V2.scale c p) = V2.scale (c + k * (p.x * p.x + p.y * p.y) * c * c * c) p := by
  unfold distort radialScale offset V2.scale
  simp [coef]
  constructor <;> ring

theorem jacobian_radial {k c : ℝ} (hk : 0 ≤ k) (p : V2) :
    (jacobian [k] (V2.scale c p)).PosDef ∧
    ∀ t, (jacobian [k] (V2.scale c p)).mulVec (V2.scale t p) = V2.scale (t * (1 + 3 * (k * (p.x * p.x + p.y * p.y)) * c * c)) p := by
  have e : jacobian [k] (V2.scale c p) =
      ⟨2 * k * (c * p.x * (c * p.x)) + (1 + (c * p.x * (c * p.x) + c * p.y * (c * p.y)) * k), 2 * k * (c * p.x * (c * p.y)),
       2 * k * (c * p.x * (c * p.y)), 2 * k * (c * p.y * (c * p.y)) + (1 + (c * p.x * (c * p.x) + c * p.y * (c * p.y)) * k)⟩ := by
    unfold jacobian radialScale radialDeriv V2.scale
    simp [coef]
  rw [e]
  have hx := mul_self_nonneg (c * p.x)
  have hy := mul_self_nonneg (c * p.y)
  generalize hX : c * p.x = X at *
  generalize hY : c * p.y = Y at *
  have h1 : 0 ≤ k * (X * X) := mul_nonneg hk hx
  have h2 : 0 ≤ k * (Y * Y) := mul_nonneg hk hy
  refine ⟨⟨rfl, ?_, ?_⟩, ?_⟩
  · simp only
    nlinarith
  · simp only
    have e2 : (2 * k * (X * X) + (1 + (X * X + Y * Y) * k)) * (2 * k * (Y * Y) + (1 + (X * X + Y * Y) * k)) - 2 * k * (X * Y) * (2 * k * (X * Y)) =
        (1 + k * (X * X) + k * (Y * Y)) * (1 + 3 * (k * (X * X)) + 3 * (k * (Y * Y))) := by ring
    rw [e2]
    apply mul_pos <;> linarith
  · intro t
    unfold M2.mulVec V2.scale
    subst hX hY
    ext <;> simp only <;> ring

/-- One iteration for a point on the ray. -/
theorem newton_step {solve : M2 → V2 → V2} (hs : ExactSolver solve) {k c : ℝ} (hk : 0 ≤ k) (p : V2) (g : ℝ) :
    solve (jacobian [k] (V2.scale c p)) (V2.scale g p) = V2.scale (g / (1 + 3 * (k * (p.x * p.x + p.y * p.y)) * c * c)) p := by
  obtain ⟨hp, hm⟩ := jacobian_radial (c := c) hk p
  apply posDef_unique hp
  rw [hs _ _ hp, hm]
  have : 1 + 3 * (k * (p.x * p.x + p.y * p.y)) * c * c ≠ 0 := by
    have h1 : 0 ≤ k * (p.x * p.x + p.y * p.y) := mul_nonneg hk (add_nonneg (mul_self_nonneg _) (mul_self_nonneg _))
    have h2 : 0 ≤ k * (p.x * p.x + p.y * p.y) * (c * c) := mul_nonneg h1 (mul_self_nonneg _)
    intro h
    linarith
  rw [div_mul_cancel₀ _ this]

/-- The error factor after one more iteration. -/
noncomputable def nextError (κ e : ℝ) : ℝ := κ * e * e * (3 + 2 * e) / (1 + 3 * κ * (1 + e) * (1 + e))

theorem nextError_nonneg {κ e : ℝ} (hκ : 0 ≤ κ) (he : 0 ≤ e) : 0 ≤ nextError κ e := by
  unfold nextError
  positivity

theorem nextError_le {κ e : ℝ} (hκ : 0 ≤ κ) (he : 0 ≤ e) : nextError κ e ≤ 2 / 3 * e := by
  unfold nextError
  have hd : 0 < 1 + 3 * κ * (1 + e) * (1 + e) := by positivity
  rw [div_le_iff₀ hd]
  have h1 : 0 ≤ κ * e * e := by positivity
  have h2 : 0 ≤ κ * e := by positivity
  nlinarith

theorem nextError_sq {κ e : ℝ} (hκ : 0 ≤ κ) (hκ' : κ ≤ 1 / 4) (he : 0 ≤ e) (he' : e ≤ 1 / 4) : nextError κ e ≤ e * e := by
  unfold nextError
  have hd : 0 < 1 + 3 * κ * (1 + e) * (1 + e) := by positivity
  rw [div_le_iff₀ hd]
  have h2 : κ * (3 + 2 * e) ≤ 1 := by nlinarith
  have h3 : 0 ≤ e * e := mul_self_nonneg e
  have h4 : 0 ≤ 3 * κ * (1 + e) * (1 + e) := by positivity
  nlinarith [mul_le_mul_of_nonneg_left h2 h3, mul_nonneg h3 h4]

/-- The result of the loop on the ray: it stopped early within the tolerance, or all iterations were made. -/
theorem loop_radial {solve : M2 → V2 → V2} (hs : ExactSolver solve) {k : ℝ} (hk : 0 ≤ k) (p : V2) (n : Nat) (e : ℝ) (he : 0 ≤ e) :
    ∃ c, undistortLoop solve [k] (distort [k] p) n (V2.scale (1 + e) p) = V2.scale (1 + c) p ∧ 0 ≤ c ∧ c ≤ e ∧
      (V2.dist (V2.scale (1 + c) p) p < 1e-12 ∨ c = (nextError (k * (p.x * p.x + p.y * p.y)))^[n] e) := by
  have hκ : 0 ≤ k * (p.x * p.x + p.y * p.y) := mul_nonneg hk (add_nonneg (mul_self_nonneg _) (mul_self_nonneg _))
  generalize hK : k * (p.x * p.x + p.y * p.y) = κ at *
  have hq : distort [k] p = V2.scale (1 + κ) p := by
    have := distort_radial k 1 p
    rw [hK] at this
    have h1 : V2.scale 1 p = p := by unfold V2.scale; simp
    rw [h1] at this
    rw [this]
    congr 1
    ring
  induction n generalizing e with
  | zero => exact ⟨e, rfl, he, le_refl _, Or.inr rfl⟩
  | succ n ih =>
    rw [undistortLoop]
    simp only
    have hr : (⟨(distort [k] (V2.scale (1 + e) p)).x - (distort [k] p).x, (distort [k] (V2.scale (1 + e) p)).y - (distort [k] p).y⟩ : V2) =
        V2.scale (e + κ * (e * (3 + e * (3 + e)))) p := by
      rw [distort_radial, hq, hK]
      unfold V2.scale
      ext <;> simp only <;> ring
    have hx := congrArg V2.x hr
    have hy := congrArg V2.y hr
    simp only at hx hy
    rw [hr, hx, hy]
    have hg : e ≤ e + κ * (e * (3 + e * (3 + e))) := by
      have : 0 ≤ κ * (e * (3 + e * (3 + e))) := by positivity
      linarith
    by_cases ht : max |(V2.scale (e + κ * (e * (3 + e * (3 + e)))) p).x| |(V2.scale (e + κ * (e * (3 + e * (3 + e)))) p).y| < 1e-12
    · rw [if_pos ht]
      refine ⟨e, rfl, he, le_refl _, Or.inl ?_⟩
      refine lt_of_le_of_lt ?_ ht
      unfold V2.dist V2.scale
      simp only
      apply max_le_max
      · rw [show (1 + e) * p.x - p.x = e * p.x by ring, abs_mul, abs_mul, abs_of_nonneg he, abs_of_nonneg (le_trans he hg)]
        exact mul_le_mul_of_nonneg_right hg (abs_nonneg _)
      · rw [show (1 + e) * p.y - p.y = e * p.y by ring, abs_mul, abs_mul, abs_of_nonneg he, abs_of_nonneg (le_trans he hg)]
        exact mul_le_mul_of_nonneg_right hg (abs_nonneg _)
    · rw [if_neg ht, newton_step hs hk, hK]
      have hne : 1 + 3 * κ * (1 + e) * (1 + e) ≠ 0 := by positivity
      have hstep : (⟨(V2.scale (1 + e) p).x - (V2.scale ((e + κ * (e * (3 + e * (3 + e)))) / (1 + 3 * κ * (1 + e) * (1 + e))) p).x,
          (V2.scale (1 + e) p).y - (V2.scale ((e + κ * (e * (3 + e * (3 + e)))) / (1 + 3 * κ * (1 + e) * (1 + e))) p).y⟩ : V2) =
          V2.scale (1 + nextError κ e) p := by
        unfold V2.scale nextError
        ext <;> simp only <;> field_simp <;> ring
      rw [hstep]
      obtain ⟨c, h1, h2, h3, h4⟩ := ih (nextError κ e) (nextError_nonneg hκ he)
      refine ⟨c, h1, h2, ?_, ?_⟩
      · have := nextError_le hκ he
        linarith
      · rw [Function.iterate_succ_apply]
        exact h4

theorem iterate_le {κ : ℝ} (hκ : 0 ≤ κ) (n : Nat) {e : ℝ} (he : 0 ≤ e) : (nextError κ)^[n] e ≤ (2 / 3) ^ n * e := by
  induction n generalizing e with
  | zero => simp
  | succ n ih =>
    rw [Function.iterate_succ_apply, pow_succ]
    have h1 := ih (nextError_nonneg hκ he)
    have h2 := mul_le_mul_of_nonneg_left (nextError_le hκ he) (by positivity : (0 : ℝ) ≤ (2 / 3) ^ n)
    linarith

theorem iterate_sq {κ : ℝ} (hκ : 0 ≤ κ) (hκ' : κ ≤ 1 / 4) (n : Nat) {e : ℝ} (he : 0 ≤ e) (he' : e ≤ 1 / 4) : (nextError κ)^[n] e ≤ e ^ (2 ^ n) := by
  induction n generalizing e with
  | zero => simp
  | succ n ih =>
    rw [Function.iterate_succ_apply]
    have h0 := nextError_nonneg hκ he
    have h1 := nextError_sq hκ hκ' he he'
    have h2 : nextError κ e ≤ 1 / 4 := by nlinarith
    refine le_trans (ih h0 h2) ?_
    calc (nextError κ e) ^ (2 ^ n) ≤ (e * e) ^ (2 ^ n) := pow_le_pow_left₀ h0 h1 _
      _ = e ^ (2 ^ (n + 1)) := by rw [← pow_two, ← pow_mul, pow_succ, mul_comm]

theorem undistort_radial {solve : M2 → V2 → V2} (hs : ExactSolver solve) {k : ℝ} (hk : 0 ≤ k) (p : V2) :
    ∃ c, undistort solve [k] (distort [k] p) = V2.scale (1 + c) p ∧ 0 ≤ c ∧ c ≤ k * (p.x * p.x + p.y * p.y) ∧
      (V2.dist (V2.scale (1 + c) p) p < 1e-12 ∨
       c = (nextError (k * (p.x * p.x + p.y * p.y)))^[5] (k * (p.x * p.x + p.y * p.y))) := by
  have hκ : 0 ≤ k * (p.x * p.x + p.y * p.y) := mul_nonneg hk (add_nonneg (mul_self_nonneg _) (mul_self_nonneg _))
  have hq : distort [k] p = V2.scale (1 + k * (p.x * p.x + p.y * p.y)) p := by
    have := distort_radial k 1 p
    have h1 : V2.scale 1 p = p := by unfold V2.scale; simp
    rw [h1] at this
    rw [this]
    congr 1
    ring
  unfold undistort
  conv =>
    enter [1, c, 1, 1]
    rw [show undistortLoop solve [k] (distort [k] p) 5 (distort [k] p) = undistortLoop solve [k] (distort [k] p) 5 (V2.scale (1 + k * (p.x * p.x + p.y * p.y)) p) by
      congr 1]
  exact loop_radial hs hk p 5 _ hκ

/-- C112, one radial coefficient `k ≥ 0`, any point: the result lies on the segment from the point to its distorted image, and
    either is within 1e-12 of the point or the distance has shrunk at least by the factor (2/3)^5. -/
theorem C112_radial {solve : M2 → V2 → V2} (hs : ExactSolver solve) {k : ℝ} (hk : 0 ≤ k) (p : V2) :
    ∃ c, undistort solve [k] (distort [k] p) = V2.scale (1 + c) p ∧ 0 ≤ c ∧ c ≤ k * (p.x * p.x + p.y * p.y) ∧
      (V2.dist (undistort solve [k] (distort [k] p)) p < 1e-12 ∨
       c ≤ (2 / 3) ^ 5 * (k * (p.x * p.x + p.y * p.y))) := by
  obtain ⟨c, h1, h2, h3, h4⟩ := undistort_radial hs hk p
  refine ⟨c, h1, h2, h3, ?_⟩
  rw [h1]
  rcases h4 with h4 | h4
  · exact Or.inl h4
  · right
    rw [h4]
    have hκ : 0 ≤ k * (p.x * p.x + p.y * p.y) := mul_nonneg hk (add_nonneg (mul_self_nonneg _) (mul_self_nonneg _))
    exact iterate_le hκ 5 hκ

/-- C112 for one radial coefficient `k ≥ 0` that moves the point by at most a quarter of its radius: `undistort` gives the
    point back to within 1e-12 in each coordinate. -/
theorem C112_partial {solve : M2 → V2 → V2} (hs : ExactSolver solve) {k : ℝ} (hk : 0 ≤ k) (p : V2)
    (hκ' : k * (p.x * p.x + p.y * p.y) ≤ 1 / 4) (hx : |p.x| ≤ 1e6) (hy : |p.y| ≤ 1e6) :
    V2.dist (undistort solve [k] (distort [k] p)) p < 1e-12 := by
  obtain ⟨c, h1, h2, h3, h4⟩ := undistort_radial hs hk p
  rw [h1]
  rcases h4 with h4 | h4
  · exact h4
  · have hκ : 0 ≤ k * (p.x * p.x + p.y * p.y) := mul_nonneg hk (add_nonneg (mul_self_nonneg _) (mul_self_nonneg _))
    have h5 := iterate_sq hκ hκ' 5 hκ hκ'
    rw [← h4] at h5
    have h6 : c ≤ (1 / 4) ^ (2 ^ 5) := le_trans h5 (pow_le_pow_left₀ hκ hκ' _)
    have hb : ∀ t : ℝ, |t| ≤ 1e6 → |(1 + c) * t - t| < 1e-12 := by
      intro t ht
      rw [show (1 + c) * t - t = c * t by ring, abs_mul, abs_of_nonneg h2]
      calc c * |t| ≤ (1 / 4) ^ (2 ^ 5) * 1e6 := mul_le_mul h6 ht (abs_nonneg _) (by positivity)
        _ < 1e-12 := by norm_num
    unfold V2.dist V2.scale
    exact max_lt (hb _ hx) (hb _ hy)

/-- A case of the theorem: a distortion of ten percent. -/
example : (1 / 10 : ℝ) * (1 * 1 + 0 * 0) ≤ 1 / 4 ∧ distort [1 / 10] ⟨1, 0⟩ = ⟨11 / 10, 0⟩ := by
  refine ⟨by norm_num, ?_⟩
  unfold distort radialScale offset
  simp [coef]
  norm_num

/-! ### Tangential distortion -/

/-- The claim for moderate distortion with any coefficients: at most one tenth each, for points within a square of side one. -/
def C112_statement : Prop := ∀ (solve : M2 → V2 → V2), ExactSolver solve → ∀ (d : List ℝ) (p : V2), (∀ c ∈ d, |c| ≤ 1 / 10) →
  |p.x| ≤ 1 / 2 → |p.y| ≤ 1 / 2 → V2.dist (undistort solve d (distort d p)) p < 1e-9

theorem distort_tang (x : ℝ) : distort [0, 0, 0, 1 / 10] ⟨x, 0⟩ = ⟨x + 3 / 10 * (x * x), 0⟩ := by
  unfold distort radialScale offset
  simp [coef]
  ring

theorem jacobian_tang (x : ℝ) : jacobian [0, 0, 0, 1 / 10] ⟨x, 0⟩ = ⟨1 + 4 / 5 * x, 0, 0, 1⟩ := by
  unfold jacobian radialScale radialDeriv
  simp [coef]
  ring

theorem loop_tang {solve : M2 → V2 → V2} (hs : ExactSolver solve) (n : Nat) (e : ℝ) (he : 1e-10 ≤ e / 14 ^ n) :
    ∃ c, undistortLoop solve [0, 0, 0, 1 / 10] ⟨23 / 40, 0⟩ n ⟨1 / 2 + e, 0⟩ = ⟨1 / 2 + c, 0⟩ ∧ e / 14 ^ n ≤ c := by
  induction n generalizing e with
  | zero => exact ⟨e, rfl, by simp⟩
  | succ n ih =>
    have hpow : (1 : ℝ) ≤ 14 ^ (n + 1) := one_le_pow₀ (by norm_num)
    have he0 : 1e-10 ≤ e := by
      rw [le_div_iff₀ (by positivity)] at he
      nlinarith
    have hpos : 0 < e := by norm_num at he0; linarith
    rw [undistortLoop]
    simp only [distort_tang, jacobian_tang]
    have hres : 1 / 2 + e + 3 / 10 * ((1 / 2 + e) * (1 / 2 + e)) - 23 / 40 = e * (13 / 10 + 3 / 10 * e) := by ring
    rw [hres, if_neg]
    · have hp : (⟨1 + 4 / 5 * (1 / 2 + e), 0, 0, 1⟩ : M2).PosDef := ⟨rfl, by simp only; nlinarith, by simp only; nlinarith⟩
      have hsol := hs ⟨1 + 4 / 5 * (1 / 2 + e), 0, 0, 1⟩ ⟨e * (13 / 10 + 3 / 10 * e), 0 - 0⟩ hp
      have hx := congrArg V2.x hsol
      have hy := congrArg V2.y hsol
      simp only [M2.mulVec] at hx hy
      generalize solve ⟨1 + 4 / 5 * (1 / 2 + e), 0, 0, 1⟩ ⟨e * (13 / 10 + 3 / 10 * e), 0 - 0⟩ = s at *
      have hden : 0 < 7 / 5 + 4 / 5 * e := by linarith
      have hsx : s.x = e - e * ((1 / 10 + 1 / 2 * e) / (7 / 5 + 4 / 5 * e)) := by
        field_simp
        nlinarith
      have hsy : s.y = 0 := by linarith
      have hnext : e / 14 ≤ e * ((1 / 10 + 1 / 2 * e) / (7 / 5 + 4 / 5 * e)) := by
        have : (1 : ℝ) / 14 ≤ (1 / 10 + 1 / 2 * e) / (7 / 5 + 4 / 5 * e) := by
          rw [le_div_iff₀ hden]
          linarith
        calc e / 14 = e * (1 / 14) := by ring
          _ ≤ _ := mul_le_mul_of_nonneg_left this hpos.le
      have hp14 : (0 : ℝ) < 14 ^ n := by positivity
      have heq : e / 14 ^ (n + 1) = e / 14 / 14 ^ n := by rw [pow_succ]; field_simp
      have hmono : e / 14 ^ (n + 1) ≤ e * ((1 / 10 + 1 / 2 * e) / (7 / 5 + 4 / 5 * e)) / 14 ^ n := by
        rw [heq]
        exact div_le_div_of_nonneg_right hnext hp14.le
      obtain ⟨c, h1, h2⟩ := ih (e * ((1 / 10 + 1 / 2 * e) / (7 / 5 + 4 / 5 * e))) (le_trans he hmono)
      refine ⟨c, ?_, le_trans hmono h2⟩
      rw [← h1]
      congr 1
      rw [hsx, hsy]
      ext <;> simp only <;> ring
    · rw [not_lt]
      refine le_trans ?_ (le_max_left _ _)
      rw [abs_of_nonneg (by positivity)]
      norm_num at he0 ⊢
      nlinarith

/-- C112 is false with tangential distortion: because of the wrong Jacobian (C61) five iterations leave an error of more than 1e-7
    for the coefficients (0, 0, 0, 1/10) at the point (1/2, 0). -/
theorem C112_refuted : ¬ C112_statement := by
  intro h
  have hs := exactSolver_cramer
  have h1 := h _ hs [0, 0, 0, 1 / 10] ⟨1 / 2, 0⟩ (by
    intro c hc
    simp at hc
    rcases hc with hc | hc <;> rw [hc] <;> norm_num) (by norm_num [abs_of_pos]) (by simp)
  obtain ⟨c, h2, h3⟩ := loop_tang hs 5 (3 / 40) (by norm_num)
  have e1 : distort [0, 0, 0, 1 / 10] ⟨1 / 2, 0⟩ = ⟨23 / 40, 0⟩ := by
    rw [distort_tang]
    ext <;> norm_num
  rw [e1] at h1
  unfold undistort at h1
  have e2 : (⟨23 / 40, 0⟩ : V2) = ⟨1 / 2 + 3 / 40, 0⟩ := by ext <;> norm_num
  conv at h1 =>
    enter [1, 1]
    rw [show ∀ s, undistortLoop s [0, 0, 0, 1 / 10] ⟨23 / 40, 0⟩ 5 ⟨23 / 40, 0⟩ = undistortLoop s [0, 0, 0, 1 / 10] ⟨23 / 40, 0⟩ 5 ⟨1 / 2 + 3 / 40, 0⟩ by
      intro s
      congr 1]
  rw [h2] at h1
  unfold V2.dist at h1
  have h4 := lt_of_le_of_lt (le_max_left _ _) h1
  simp only [add_sub_cancel_left] at h4
  have h5 := lt_of_le_of_lt (le_abs_self c) h4
  norm_num at h3 h5
  linarith

end Vital.Geo
