import Verif.Geo.Undistort
/- Property C112, continued: all radial models (no tangential coefficients), coefficients of any sign. -/
namespace Vital.Geo
open Intr

/-! ### The distortion along a ray -/

/-- Numerator and denominator of the distorted radius, relative to the radius of the point; `c` is the relative radius. -/
noncomputable def num (k1 k2 k3 c : ℝ) : ℝ := c + k1 * c ^ 3 + k2 * c ^ 5 + k3 * c ^ 7
noncomputable def den (d1 d2 d3 c : ℝ) : ℝ := 1 + d1 * c ^ 2 + d2 * c ^ 4 + d3 * c ^ 6
noncomputable def numD (k1 k2 k3 c : ℝ) : ℝ := 1 + 3 * k1 * c ^ 2 + 5 * k2 * c ^ 4 + 7 * k3 * c ^ 6
noncomputable def denD (d1 d2 d3 c : ℝ) : ℝ := 2 * d1 * c + 4 * d2 * c ^ 3 + 6 * d3 * c ^ 5

/-- A denominator coefficient, which counts only when there are eight coefficients. -/
noncomputable def dcoef (d : List ℝ) (i : Nat) : ℝ := if 7 < d.length then coef d i else 0

theorem coef_short {d : List ℝ} {i : Nat} (h : d.length ≤ i) : coef d i = 0 := by
  unfold coef
  rw [List.getD_eq_getElem?_getD, List.getElem?_eq_none h]
  rfl

theorem radialScale_eq (d : List ℝ) (r : ℝ) :
    radialScale d r = (1 + r * coef d 0 + r * r * coef d 1 + r * (r * r) * coef d 4) / (1 + r * dcoef d 5 + r * r * dcoef d 6 + r * (r * r) * dcoef d 7) := by
  unfold radialScale dcoef
  by_cases h0 : 0 < d.length
  · by_cases h1 : 1 < d.length
    · by_cases h4 : 4 < d.length
      · by_cases h7 : 7 < d.length
        · simp only [h0, h1, h4, h7, if_true]
        · simp only [h0, h1, h4, h7, if_true, if_false, mul_zero, add_zero, div_one]
      · have h7 : ¬ 7 < d.length := by omega
        simp only [h0, h1, h4, h7, if_true, if_false, mul_zero, add_zero, div_one, coef_short (not_lt.1 h4)]
    · have h4 : ¬ 4 < d.length := by omega
      have h7 : ¬ 7 < d.length := by omega
      simp only [h0, h1, h7, if_true, if_false, mul_zero, add_zero, div_one, coef_short (not_lt.1 h4), coef_short (not_lt.1 h1)]
  · have h1 : ¬ 1 < d.length := by omega
    have h4 : ¬ 4 < d.length := by omega
    have h7 : ¬ 7 < d.length := by omega
    simp only [h0, h7, if_false, mul_zero, add_zero, div_one, coef_short (not_lt.1 h4), coef_short (not_lt.1 h1), coef_short (not_lt.1 h0)]

theorem radialDeriv_eq (d : List ℝ) (r : ℝ) (h : 1 + r * dcoef d 5 + r * r * dcoef d 6 + r * (r * r) * dcoef d 7 ≠ 0) :
    radialDeriv d r = ((coef d 0 + 2 * r * coef d 1 + 3 * (r * r) * coef d 4) * (1 + r * dcoef d 5 + r * r * dcoef d 6 + r * (r * r) * dcoef d 7) -
      (1 + r * coef d 0 + r * r * coef d 1 + r * (r * r) * coef d 4) * (dcoef d 5 + 2 * r * dcoef d 6 + 3 * (r * r) * dcoef d 7)) /
      (1 + r * dcoef d 5 + r * r * dcoef d 6 + r * (r * r) * dcoef d 7) ^ 2 := by
  unfold radialDeriv
  by_cases h0 : 0 < d.length
  · by_cases h1 : 1 < d.length
    · by_cases h4 : 4 < d.length
      · by_cases h7 : 7 < d.length
        · unfold dcoef at *
          simp only [h0, h1, h4, h7, if_true] at *
          have e : coef d 5 * r + coef d 6 * (r * r) + coef d 7 * (r * r * r) + 1 = 1 + r * coef d 5 + r * r * coef d 6 + r * (r * r) * coef d 7 := by ring
          rw [e]
          generalize 1 + r * coef d 5 + r * r * coef d 6 + r * (r * r) * coef d 7 = D at *
          field_simp
          ring
        · unfold dcoef at *
          simp only [h0, h1, h4, h7, if_true, if_false] at *
          ring
      · have h7 : ¬ 7 < d.length := by omega
        unfold dcoef at *
        simp only [h0, h1, h4, h7, if_true, if_false, coef_short (not_lt.1 h4)] at *
        ring
    · have h4 : ¬ 4 < d.length := by omega
      have h7 : ¬ 7 < d.length := by omega
      unfold dcoef at *
      simp only [h0, h1, h7, if_true, if_false, coef_short (not_lt.1 h4), coef_short (not_lt.1 h1)] at *
      ring
  · have h1 : ¬ 1 < d.length := by omega
    have h4 : ¬ 4 < d.length := by omega
    have h7 : ¬ 7 < d.length := by omega
    unfold dcoef at *
    simp only [h0, h7, if_false, coef_short (not_lt.1 h4), coef_short (not_lt.1 h1), coef_short (not_lt.1 h0)] at *
    ring

/-- The coefficients along the ray through a point with squared radius `r`. -/
structure Ray where
  k1 : ℝ
  k2 : ℝ
  k3 : ℝ
  d1 : ℝ
  d2 : ℝ
  d3 : ℝ

noncomputable def rayOf (d : List ℝ) (p : V2) : Ray :=
  let r := p.x * p.x + p.y * p.y
  ⟨r * coef d 0, r ^ 2 * coef d 1, r ^ 3 * coef d 4, r * dcoef d 5, r ^ 2 * dcoef d 6, r ^ 3 * dcoef d 7⟩

noncomputable def Ray.n (y : Ray) (c : ℝ) : ℝ := num y.k1 y.k2 y.k3 c
noncomputable def Ray.d (y : Ray) (c : ℝ) : ℝ := den y.d1 y.d2 y.d3 c
noncomputable def Ray.n' (y : Ray) (c : ℝ) : ℝ := numD y.k1 y.k2 y.k3 c
noncomputable def Ray.d' (y : Ray) (c : ℝ) : ℝ := denD y.d1 y.d2 y.d3 c
/-- The distorted relative radius and its derivative. -/
noncomputable def Ray.g (y : Ray) (c : ℝ) : ℝ := y.n c / y.d c
noncomputable def Ray.g' (y : Ray) (c : ℝ) : ℝ := (y.n' c * y.d c - y.n c * y.d' c) / (y.d c) ^ 2

theorem distort_ray {d : List ℝ} (h2 : coef d 2 = 0) (h3 : coef d 3 = 0) (p : V2) (c : ℝ) :
    distort d (V2.scale c p) = V2.scale ((rayOf d p).g c) p := by
  have ho : ∀ q, offset d q = ⟨0, 0⟩ := by
    intro q
    unfold offset
    simp only [h2, h3, zero_mul, add_zero, ite_self]
  unfold distort
  rw [radialScale_eq, ho]
  have e1 : c * p.x * (c * p.x) + c * p.y * (c * p.y) = c * c * (p.x * p.x + p.y * p.y) := by ring
  simp only [V2.scale, e1, add_zero, Ray.g, Ray.n, Ray.d, rayOf, num, den]
  generalize p.x * p.x + p.y * p.y = r
  have e2 : 1 + c * c * r * dcoef d 5 + c * c * r * (c * c * r) * dcoef d 6 + c * c * r * (c * c * r * (c * c * r)) * dcoef d 7 =
      1 + r * dcoef d 5 * c ^ 2 + r ^ 2 * dcoef d 6 * c ^ 4 + r ^ 3 * dcoef d 7 * c ^ 6 := by ring
  rw [e2]
  ext <;> simp only <;> ring

theorem jacobian_ray {d : List ℝ} (h2 : coef d 2 = 0) (h3 : coef d 3 = 0) (p : V2) {c : ℝ} (hc : 0 < c)
    (hn : 0 < (rayOf d p).n c) (hd : 0 < (rayOf d p).d c) (hg : 0 < (rayOf d p).g' c) :
    (jacobian d (V2.scale c p)).PosDef ∧ ∀ t, (jacobian d (V2.scale c p)).mulVec (V2.scale t p) = V2.scale (t * (rayOf d p).g' c) p := by
  have ej : jacobian d (V2.scale c p) =
      ⟨2 * radialDeriv d (c * p.x * (c * p.x) + c * p.y * (c * p.y)) * (c * p.x * (c * p.x)) + radialScale d (c * p.x * (c * p.x) + c * p.y * (c * p.y)),
       2 * radialDeriv d (c * p.x * (c * p.x) + c * p.y * (c * p.y)) * (c * p.x * (c * p.y)), 2 * radialDeriv d (c * p.x * (c * p.x) + c * p.y * (c * p.y)) * (c * p.x * (c * p.y)),
       2 * radialDeriv d (c * p.x * (c * p.x) + c * p.y * (c * p.y)) * (c * p.y * (c * p.y)) + radialScale d (c * p.x * (c * p.x) + c * p.y * (c * p.y))⟩ := by
    unfold jacobian V2.scale
    simp only [h2, h3, mul_zero, zero_mul, add_zero, ite_self]
  rw [ej]
  have e1 : c * p.x * (c * p.x) + c * p.y * (c * p.y) = c * c * (p.x * p.x + p.y * p.y) := by ring
  have hr : 0 ≤ p.x * p.x + p.y * p.y := add_nonneg (mul_self_nonneg _) (mul_self_nonneg _)
  have ed : (rayOf d p).d c = 1 + c * c * (p.x * p.x + p.y * p.y) * dcoef d 5 + c * c * (p.x * p.x + p.y * p.y) * (c * c * (p.x * p.x + p.y * p.y)) * dcoef d 6 +
      c * c * (p.x * p.x + p.y * p.y) * (c * c * (p.x * p.x + p.y * p.y) * (c * c * (p.x * p.x + p.y * p.y))) * dcoef d 7 := by
    simp only [Ray.d, rayOf, den]; ring
  have es : radialScale d (c * p.x * (c * p.x) + c * p.y * (c * p.y)) = (rayOf d p).g c / c := by
    rw [radialScale_eq, e1, ← ed]
    have en : (rayOf d p).n c = c * (1 + c * c * (p.x * p.x + p.y * p.y) * coef d 0 + c * c * (p.x * p.x + p.y * p.y) * (c * c * (p.x * p.x + p.y * p.y)) * coef d 1 +
        c * c * (p.x * p.x + p.y * p.y) * (c * c * (p.x * p.x + p.y * p.y) * (c * c * (p.x * p.x + p.y * p.y))) * coef d 4) := by
      simp only [Ray.n, rayOf, num]; ring
    unfold Ray.g
    rw [en]
    field_simp
  have eg : (rayOf d p).g' c = radialScale d (c * p.x * (c * p.x) + c * p.y * (c * p.y)) +
      2 * radialDeriv d (c * p.x * (c * p.x) + c * p.y * (c * p.y)) * (c * p.x * (c * p.x) + c * p.y * (c * p.y)) := by
    rw [es, e1, radialDeriv_eq d _ (by rw [← ed]; exact hd.ne'), ← ed]
    unfold Ray.g Ray.g'
    have hd' := hd.ne'
    have e3 : (rayOf d p).n' c * (rayOf d p).d c - (rayOf d p).n c * (rayOf d p).d' c =
        (rayOf d p).n c * (rayOf d p).d c / c + 2 * ((coef d 0 + 2 * (c * c * (p.x * p.x + p.y * p.y)) * coef d 1 + 3 * (c * c * (p.x * p.x + p.y * p.y) * (c * c * (p.x * p.x + p.y * p.y))) * coef d 4) * (rayOf d p).d c -
          (1 + c * c * (p.x * p.x + p.y * p.y) * coef d 0 + c * c * (p.x * p.x + p.y * p.y) * (c * c * (p.x * p.x + p.y * p.y)) * coef d 1 +
            c * c * (p.x * p.x + p.y * p.y) * (c * c * (p.x * p.x + p.y * p.y) * (c * c * (p.x * p.x + p.y * p.y))) * coef d 4) *
          (dcoef d 5 + 2 * (c * c * (p.x * p.x + p.y * p.y)) * dcoef d 6 + 3 * (c * c * (p.x * p.x + p.y * p.y) * (c * c * (p.x * p.x + p.y * p.y))) * dcoef d 7)) *
          (c * c * (p.x * p.x + p.y * p.y)) := by
      have hc' := hc.ne'
      simp only [Ray.n, Ray.d, Ray.n', Ray.d', rayOf, num, den, numD, denD]
      field_simp
      ring
    rw [e3]
    field_simp
  have hs : 0 < radialScale d (c * p.x * (c * p.x) + c * p.y * (c * p.y)) := by
    rw [es]
    exact div_pos (div_pos hn hd) hc
  rw [eg] at hg ⊢
  generalize radialScale d (c * p.x * (c * p.x) + c * p.y * (c * p.y)) = s at *
  generalize radialDeriv d (c * p.x * (c * p.x) + c * p.y * (c * p.y)) = v at *
  have hx := mul_self_nonneg (c * p.x)
  have hy := mul_self_nonneg (c * p.y)
  refine ⟨⟨rfl, ?_, ?_⟩, ?_⟩
  · simp only
    by_cases hv : 0 ≤ v
    · nlinarith [mul_nonneg hv hx]
    · nlinarith [mul_nonneg (neg_nonneg.2 (not_le.1 hv).le) hy]
  · simp only
    have : (2 * v * (c * p.x * (c * p.x)) + s) * (2 * v * (c * p.y * (c * p.y)) + s) - 2 * v * (c * p.x * (c * p.y)) * (2 * v * (c * p.x * (c * p.y))) =
        s * (s + 2 * v * (c * p.x * (c * p.x) + c * p.y * (c * p.y))) := by ring
    rw [this]
    exact mul_pos hs hg
  · intro t
    unfold M2.mulVec V2.scale
    ext <;> simp only <;> ring

/-! ### Newton's iteration -/

/-- Numbers for which the iteration converges quadratically within a tenth of the root. -/
structure Ray.Good (y : Ray) : Prop where
  start : |y.g 1 - 1| ≤ 1 / 10
  num : ∀ e, |e| ≤ 1 / 10 → 0 < y.n (1 + e)
  den : ∀ e, |e| ≤ 1 / 10 → 0 < y.d (1 + e)
  slope : ∀ e, |e| ≤ 1 / 10 → 1 / 3 ≤ y.g' (1 + e)
  err : ∀ e, |e| ≤ 1 / 10 → |e * y.g' (1 + e) - (y.g (1 + e) - y.g 1)| ≤ 2 * y.g' (1 + e) * e ^ 2

/-- The residual bounds the error. -/
theorem Ray.Good.residual {y : Ray} (h : y.Good) {e : ℝ} (he : |e| ≤ 1 / 10) : |e| ≤ 4 * |y.g (1 + e) - y.g 1| := by
  have h1 := h.slope e he
  have h2 := h.err e he
  generalize y.g (1 + e) - y.g 1 = r at *
  generalize y.g' (1 + e) = g at *
  have h3 : |e * g| ≤ |e * g - r| + |r| := by
    have := abs_add_le (e * g - r) r
    rwa [sub_add_cancel] at this
  have hg : 0 < g := by linarith
  rw [abs_mul, abs_of_pos hg] at h3
  have h4 : e ^ 2 ≤ 1 / 10 * |e| := by
    rw [← sq_abs, pow_two]
    exact mul_le_mul_of_nonneg_right he (abs_nonneg _)
  have h5 : 2 * g * e ^ 2 ≤ 2 * g * (1 / 10 * |e|) := mul_le_mul_of_nonneg_left h4 (by linarith)
  have h6 : 0 ≤ |e| * (g - 1 / 3) := mul_nonneg (abs_nonneg _) (by linarith)
  nlinarith [abs_nonneg e, abs_nonneg r]

theorem scale_parts (c : ℝ) (p : V2) : (V2.scale c p).x = c * p.x ∧ (V2.scale c p).y = c * p.y := ⟨rfl, rfl⟩

/-- The result of the loop on the ray: it stopped within the tolerance, or the error was squared in each iteration. -/
theorem loop_ray {solve : M2 → V2 → V2} (hs : ExactSolver solve) {d : List ℝ} (h2 : coef d 2 = 0) (h3 : coef d 3 = 0) {p : V2} (hy : (rayOf d p).Good) (n : Nat) :
    ∀ e : ℝ, |e| ≤ 1 / 10 → ∃ c, undistortLoop solve d (distort d p) n (V2.scale (1 + e) p) = V2.scale (1 + c) p ∧
      (V2.dist (V2.scale (1 + c) p) p < 4e-12 ∨ 2 * |c| ≤ (2 * |e|) ^ 2 ^ n) := by
  have hq : distort d p = V2.scale ((rayOf d p).g 1) p := by
    have := distort_ray h2 h3 p 1
    have h1 : V2.scale 1 p = p := by unfold V2.scale; simp
    rwa [h1] at this
  rw [hq]
  induction n with
  | zero => intro e _; exact ⟨e, rfl, Or.inr (by simp)⟩
  | succ n ih =>
    intro e he
    have hb := abs_le.1 he
    have hg := hy.slope e he
    have hres : (⟨(distort d (V2.scale (1 + e) p)).x - (V2.scale ((rayOf d p).g 1) p).x, (distort d (V2.scale (1 + e) p)).y - (V2.scale ((rayOf d p).g 1) p).y⟩ : V2) =
        V2.scale ((rayOf d p).g (1 + e) - (rayOf d p).g 1) p := by
      rw [distort_ray h2 h3]
      unfold V2.scale
      ext <;> simp only <;> ring
    obtain ⟨hp, hm⟩ := jacobian_ray h2 h3 p (c := 1 + e) (by linarith) (hy.num e he) (hy.den e he) (by linarith)
    have hr := hy.residual he
    have herr := hy.err e he
    rw [undistortLoop]
    simp only
    have hx := congrArg V2.x hres
    have hyy := congrArg V2.y hres
    simp only at hx hyy
    rw [hres, hx, hyy]
    generalize (rayOf d p).g (1 + e) - (rayOf d p).g 1 = r at *
    generalize (rayOf d p).g' (1 + e) = g at *
    by_cases ht : max |(V2.scale r p).x| |(V2.scale r p).y| < 1e-12
    · rw [if_pos ht]
      refine ⟨e, rfl, Or.inl ?_⟩
      have hk : ∀ t : ℝ, |(1 + e) * t - t| ≤ 4 * |r * t| := by
        intro t
        rw [show (1 + e) * t - t = e * t by ring, abs_mul, abs_mul, ← mul_assoc]
        exact mul_le_mul_of_nonneg_right hr (abs_nonneg _)
      have h5 := lt_of_le_of_lt (le_max_left _ _) ht
      have h6 := lt_of_le_of_lt (le_max_right _ _) ht
      simp only [V2.scale] at h5 h6
      unfold V2.dist V2.scale
      simp only
      refine max_lt (lt_of_le_of_lt (hk _) ?_) (lt_of_le_of_lt (hk _) ?_)
      · norm_num at h5 ⊢; linarith
      · norm_num at h6 ⊢; linarith
    · rw [if_neg ht]
      have hgpos : 0 < g := by linarith
      have hstep : solve (jacobian d (V2.scale (1 + e) p)) (V2.scale r p) = V2.scale (r / g) p := by
        apply posDef_unique hp
        rw [hs _ _ hp, hm, div_mul_cancel₀ _ hgpos.ne']
      rw [hstep]
      have hnew : (⟨(V2.scale (1 + e) p).x - (V2.scale (r / g) p).x, (V2.scale (1 + e) p).y - (V2.scale (r / g) p).y⟩ : V2) = V2.scale (1 + (e - r / g)) p := by
        unfold V2.scale
        ext <;> simp only <;> ring
      rw [hnew]
      have he' : |e - r / g| ≤ 2 * e ^ 2 := by
        rw [show e - r / g = (e * g - r) / g by field_simp, abs_div, abs_of_pos hgpos, div_le_iff₀ hgpos]
        linarith
      have hsq : e ^ 2 = |e| * |e| := by rw [← sq_abs, pow_two]
      have hsmall : |e - r / g| ≤ 1 / 10 := by
        rw [hsq] at he'
        nlinarith [abs_nonneg e]
      obtain ⟨c, h5, h6⟩ := ih _ hsmall
      refine ⟨c, h5, h6.imp id fun h6 => le_trans h6 ?_⟩
      calc (2 * |e - r / g|) ^ 2 ^ n ≤ ((2 * |e|) ^ 2) ^ 2 ^ n := by
            apply pow_le_pow_left₀ (by positivity)
            rw [hsq] at he'
            nlinarith
        _ = (2 * |e|) ^ 2 ^ (n + 1) := by rw [← pow_mul]; congr 1; ring

/-- C112 where the iteration converges. -/
theorem undistort_ray {solve : M2 → V2 → V2} (hs : ExactSolver solve) {d : List ℝ} (h2 : coef d 2 = 0) (h3 : coef d 3 = 0) {p : V2} (hy : (rayOf d p).Good)
    (hpx : |p.x| ≤ 1000) (hpy : |p.y| ≤ 1000) : V2.dist (undistort solve d (distort d p)) p < 1e-9 := by
  have hq : distort d p = V2.scale ((rayOf d p).g 1) p := by
    have := distort_ray h2 h3 p 1
    have h1 : V2.scale 1 p = p := by unfold V2.scale; simp
    rwa [h1] at this
  obtain ⟨c, h4, h5⟩ := loop_ray hs h2 h3 hy 5 ((rayOf d p).g 1 - 1) hy.start
  rw [show 1 + ((rayOf d p).g 1 - 1) = (rayOf d p).g 1 by ring, ← hq] at h4
  unfold undistort
  rw [h4]
  rcases h5 with h5 | h5
  · exact lt_trans h5 (by norm_num)
  · have h6 : 2 * |c| ≤ (1 / 5) ^ 2 ^ 5 := le_trans h5 (pow_le_pow_left₀ (by positivity) (by linarith [hy.start]) _)
    have hb : ∀ t : ℝ, |t| ≤ 1000 → |(1 + c) * t - t| < 1e-9 := by
      intro t ht
      rw [show (1 + c) * t - t = c * t by ring, abs_mul]
      have h7 : |c| ≤ (1 / 5) ^ 2 ^ 5 / 2 := by linarith
      calc |c| * |t| ≤ (1 / 5) ^ 2 ^ 5 / 2 * 1000 := mul_le_mul h7 ht (abs_nonneg _) (by positivity)
        _ < 1e-9 := by norm_num
    unfold V2.dist V2.scale
    exact max_lt (hb _ hpx) (hb _ hpy)

/-! ### Bounds -/

theorem bd {a b A B : ℝ} (ha : |a| ≤ A) (hb : |b| ≤ B) : |a * b| ≤ A * B := by
  rw [abs_mul]
  exact mul_le_mul ha hb (abs_nonneg _) (le_trans (abs_nonneg _) ha)

theorem pow_bd {e : ℝ} (he : |e| ≤ 1 / 10) (n : Nat) : |(1 + e) ^ n| ≤ (11 / 10) ^ n := by
  rw [abs_pow]
  apply pow_le_pow_left₀ (abs_nonneg _)
  have := abs_le.1 he
  rw [abs_le]
  constructor <;> linarith

theorem e_bd {e : ℝ} (he : |e| ≤ 1 / 10) (n : Nat) : |e ^ n| ≤ (1 / 10) ^ n := by
  rw [abs_pow]
  exact pow_le_pow_left₀ (abs_nonneg _) he _

/-- A polynomial scale with coefficients of at most 1/20, 1/40 and 1/80 at the point. -/
theorem good_poly {y : Ray} (h1 : |y.k1| ≤ 1 / 20) (h2 : |y.k2| ≤ 1 / 40) (h3 : |y.k3| ≤ 1 / 80) (e1 : y.d1 = 0) (e2 : y.d2 = 0) (e3 : y.d3 = 0) : y.Good := by
  have hd : ∀ c, y.d c = 1 := by intro c; simp [Ray.d, den, e1, e2, e3]
  have hd' : ∀ c, y.d' c = 0 := by intro c; simp [Ray.d', denD, e1, e2, e3]
  have hg : ∀ c, y.g c = y.n c := by intro c; simp [Ray.g, hd]
  have hg' : ∀ c, y.g' c = y.n' c := by intro c; simp [Ray.g', hd, hd']
  have hslope : ∀ e, |e| ≤ 1 / 10 → 12 / 25 ≤ y.n' (1 + e) := by
    intro e he
    have t1 := abs_le.1 (bd h1 (pow_bd he 2))
    have t2 := abs_le.1 (bd h2 (pow_bd he 4))
    have t3 := abs_le.1 (bd h3 (pow_bd he 6))
    unfold Ray.n' numD
    norm_num at t1 t2 t3 ⊢
    linarith
  refine ⟨?_, ?_, ?_, ?_, ?_⟩
  · rw [hg]
    have t1 := abs_le.1 h1
    have t2 := abs_le.1 h2
    have t3 := abs_le.1 h3
    unfold Ray.n num
    rw [abs_le]
    constructor <;> norm_num <;> linarith
  · intro e he
    have t0 := abs_le.1 he
    have t1 := abs_le.1 (bd h1 (pow_bd he 3))
    have t2 := abs_le.1 (bd h2 (pow_bd he 5))
    have t3 := abs_le.1 (bd h3 (pow_bd he 7))
    unfold Ray.n num
    norm_num at t1 t2 t3 ⊢
    linarith
  · intro e _; rw [hd]; exact one_pos
  · intro e he; rw [hg']; linarith [hslope e he]
  · intro e he
    rw [hg, hg, hg']
    have hs := hslope e he
    have key : e * y.n' (1 + e) - (y.n (1 + e) - y.n 1) =
        (y.k1 * (3 + 2 * e) + y.k2 * (10 + 20 * e + 15 * e ^ 2 + 4 * e ^ 3) + y.k3 * (21 + 70 * e + 105 * e ^ 2 + 84 * e ^ 3 + 35 * e ^ 4 + 6 * e ^ 5)) * e ^ 2 := by
      unfold Ray.n' numD Ray.n num
      ring
    have t1 := abs_le.1 he
    have t2 := abs_le.1 (e_bd he 2)
    have t3 := abs_le.1 (e_bd he 3)
    have t4 := abs_le.1 (e_bd he 4)
    have t5 := abs_le.1 (e_bd he 5)
    have b1 : |3 + 2 * e| ≤ 16 / 5 := by rw [abs_le]; constructor <;> linarith
    have b2 : |10 + 20 * e + 15 * e ^ 2 + 4 * e ^ 3| ≤ 61 / 5 := by rw [abs_le]; norm_num at t2 t3 t4 t5; constructor <;> linarith
    have b3 : |21 + 70 * e + 105 * e ^ 2 + 84 * e ^ 3 + 35 * e ^ 4 + 6 * e ^ 5| ≤ 147 / 5 := by rw [abs_le]; norm_num at t2 t3 t4 t5; constructor <;> linarith
    have c1 := abs_le.1 (bd h1 b1)
    have c2 := abs_le.1 (bd h2 b2)
    have c3 := abs_le.1 (bd h3 b3)
    rw [key, abs_mul, abs_of_nonneg (sq_nonneg e)]
    apply mul_le_mul_of_nonneg_right _ (sq_nonneg e)
    rw [abs_le]
    norm_num at c1 c2 c3
    constructor <;> linarith

theorem quot_key {e n n' d d' n1 d1 rn rd : ℝ} (hd : d ≠ 0) (hd1 : d1 ≠ 0) (en : n1 = n - e * n' + e ^ 2 * rn) (ed : d1 = d - e * d' + e ^ 2 * rd) :
    e * ((n' * d - n * d') / d ^ 2) - (n / d - n1 / d1) = e ^ 2 * ((n' * d - n * d') * (-d' + e * rd) - (n * rd - rn * d) * d) / (d ^ 2 * d1) := by
  have e3 : e * ((n' * d - n * d') / d ^ 2) - (n / d - n1 / d1) = (e * (n' * d - n * d') * d1 - (n * d1 - n1 * d) * d) / (d ^ 2 * d1) := by
    field_simp
  rw [e3, en]
  congr 1
  rw [ed]
  ring

theorem quot_key2 {e w d d1 : ℝ} (hd : d ≠ 0) : 2 * (w / d ^ 2) * e ^ 2 * (d ^ 2 * d1) = e ^ 2 * (2 * w * d1) := by
  field_simp

set_option maxHeartbeats 1000000 in
/-- A rational scale with coefficients of at most 1/40, 1/80 and 1/160 at the point, above and below. -/
theorem good_rational {y : Ray} (h1 : |y.k1| ≤ 1 / 40) (h2 : |y.k2| ≤ 1 / 80) (h3 : |y.k3| ≤ 1 / 160) (g1 : |y.d1| ≤ 1 / 40) (g2 : |y.d2| ≤ 1 / 80) (g3 : |y.d3| ≤ 1 / 160) :
    y.Good := by
  have u1 := abs_le.1 h1
  have u2 := abs_le.1 h2
  have u3 := abs_le.1 h3
  have v1 := abs_le.1 g1
  have v2 := abs_le.1 g2
  have v3 := abs_le.1 g3
  have hd1 : 153 / 160 ≤ y.d 1 ∧ y.d 1 ≤ 167 / 160 := by
    unfold Ray.d den
    constructor <;> norm_num <;> linarith
  have hd : ∀ e, |e| ≤ 1 / 10 → 94 / 100 ≤ y.d (1 + e) ∧ y.d (1 + e) ≤ 106 / 100 := by
    intro e he
    have t1 := abs_le.1 (bd g1 (pow_bd he 2))
    have t2 := abs_le.1 (bd g2 (pow_bd he 4))
    have t3 := abs_le.1 (bd g3 (pow_bd he 6))
    unfold Ray.d den
    norm_num at t1 t2 t3 ⊢
    constructor <;> linarith
  have hn : ∀ e, |e| ≤ 1 / 10 → 8 / 10 ≤ y.n (1 + e) ∧ y.n (1 + e) ≤ 1166 / 1000 := by
    intro e he
    have t0 := abs_le.1 he
    have t1 := abs_le.1 (bd h1 (pow_bd he 3))
    have t2 := abs_le.1 (bd h2 (pow_bd he 5))
    have t3 := abs_le.1 (bd h3 (pow_bd he 7))
    unfold Ray.n num
    norm_num at t1 t2 t3 ⊢
    constructor <;> linarith
  have hn' : ∀ e, |e| ≤ 1 / 10 → 74 / 100 ≤ y.n' (1 + e) := by
    intro e he
    have t1 := abs_le.1 (bd h1 (pow_bd he 2))
    have t2 := abs_le.1 (bd h2 (pow_bd he 4))
    have t3 := abs_le.1 (bd h3 (pow_bd he 6))
    unfold Ray.n' numD
    norm_num at t1 t2 t3 ⊢
    linarith
  have hd' : ∀ e, |e| ≤ 1 / 10 → |y.d' (1 + e)| ≤ 182 / 1000 := by
    intro e he
    have t1 := abs_le.1 (bd g1 (pow_bd he 1))
    have t2 := abs_le.1 (bd g2 (pow_bd he 3))
    have t3 := abs_le.1 (bd g3 (pow_bd he 5))
    unfold Ray.d' denD
    rw [abs_le]
    norm_num at t1 t2 t3 ⊢
    constructor <;> linarith
  have hw : ∀ e, |e| ≤ 1 / 10 → 48 / 100 ≤ y.n' (1 + e) * y.d (1 + e) - y.n (1 + e) * y.d' (1 + e) := by
    intro e he
    have a1 := hd e he
    have a2 := hn e he
    have a3 := hn' e he
    have a5 := hd' e he
    have b1 : 74 / 100 * (94 / 100) ≤ y.n' (1 + e) * y.d (1 + e) := mul_le_mul a3 a1.1 (by norm_num) (by linarith)
    have b2 := abs_le.1 (bd (abs_le.2 ⟨by linarith [a2.1], a2.2⟩ : |y.n (1 + e)| ≤ 1166 / 1000) a5)
    norm_num at b1 b2 ⊢
    linarith
  refine ⟨?_, ?_, ?_, ?_, ?_⟩
  · have hp : 0 < y.d 1 := by linarith [hd1.1]
    have e1 : y.g 1 - 1 = (y.n 1 - y.d 1) / y.d 1 := by unfold Ray.g; field_simp
    rw [e1, abs_div, abs_of_pos hp, div_le_iff₀ hp]
    have : |y.n 1 - y.d 1| ≤ 14 / 160 := by
      unfold Ray.n num Ray.d den
      rw [abs_le]
      constructor <;> norm_num <;> linarith
    linarith [hd1.1]
  · intro e he; linarith [(hn e he).1]
  · intro e he; linarith [(hd e he).1]
  · intro e he
    have a1 := hd e he
    unfold Ray.g'
    rw [le_div_iff₀ (by nlinarith)]
    have a2 := hw e he
    nlinarith
  · intro e he
    have a1 := hd e he
    have a2 := hn e he
    have a5 := hd' e he
    have a6 := hw e he
    have t1 := abs_le.1 he
    have t2 := abs_le.1 (e_bd he 2)
    have t3 := abs_le.1 (e_bd he 3)
    have t4 := abs_le.1 (e_bd he 4)
    have t5 := abs_le.1 (e_bd he 5)
    have b1 : |3 + 2 * e| ≤ 16 / 5 := by rw [abs_le]; constructor <;> linarith
    have b2 : |10 + 20 * e + 15 * e ^ 2 + 4 * e ^ 3| ≤ 122 / 10 := by rw [abs_le]; norm_num at t2 t3 t4 t5; constructor <;> linarith
    have b3 : |21 + 70 * e + 105 * e ^ 2 + 84 * e ^ 3 + 35 * e ^ 4 + 6 * e ^ 5| ≤ 292 / 10 := by rw [abs_le]; norm_num at t2 t3 t4 t5; constructor <;> linarith
    have b4 : |6 + 8 * e + 3 * e ^ 2| ≤ 69 / 10 := by rw [abs_le]; norm_num at t2 t3 t4 t5; constructor <;> linarith
    have b5 : |15 + 40 * e + 45 * e ^ 2 + 24 * e ^ 3 + 5 * e ^ 4| ≤ 196 / 10 := by rw [abs_le]; norm_num at t2 t3 t4 t5; constructor <;> linarith
    -- the remainders of numerator and denominator
    have hrn : ∃ rn, y.n 1 = y.n (1 + e) - e * y.n' (1 + e) + e ^ 2 * rn ∧ |rn| ≤ 416 / 1000 := by
      refine ⟨y.k1 * (3 + 2 * e) + y.k2 * (10 + 20 * e + 15 * e ^ 2 + 4 * e ^ 3) + y.k3 * (21 + 70 * e + 105 * e ^ 2 + 84 * e ^ 3 + 35 * e ^ 4 + 6 * e ^ 5), ?_, ?_⟩
      · unfold Ray.n' numD Ray.n num
        ring
      · have c1 := abs_le.1 (bd h1 b1)
        have c2 := abs_le.1 (bd h2 b2)
        have c3 := abs_le.1 (bd h3 b3)
        rw [abs_le]
        norm_num at c1 c2 c3
        constructor <;> linarith
    have hrd : ∃ rd, y.d 1 = y.d (1 + e) - e * y.d' (1 + e) + e ^ 2 * rd ∧ |rd| ≤ 234 / 1000 := by
      refine ⟨y.d1 + y.d2 * (6 + 8 * e + 3 * e ^ 2) + y.d3 * (15 + 40 * e + 45 * e ^ 2 + 24 * e ^ 3 + 5 * e ^ 4), ?_, ?_⟩
      · unfold Ray.d' denD Ray.d den
        ring
      · have c2 := abs_le.1 (bd g2 b4)
        have c3 := abs_le.1 (bd g3 b5)
        rw [abs_le]
        norm_num at c2 c3
        constructor <;> linarith
    obtain ⟨rn, en, bn⟩ := hrn
    obtain ⟨rd, ed, bdd⟩ := hrd
    have hD : 0 < y.d (1 + e) := by linarith
    have hD1 : 0 < y.d 1 := by linarith
    have key : e * y.g' (1 + e) - (y.g (1 + e) - y.g 1) =
        e ^ 2 * ((y.n' (1 + e) * y.d (1 + e) - y.n (1 + e) * y.d' (1 + e)) * (-(y.d' (1 + e)) + e * rd) - (y.n (1 + e) * rd - rn * y.d (1 + e)) * y.d (1 + e)) /
          (y.d (1 + e) ^ 2 * y.d 1) := by
      exact quot_key hD.ne' hD1.ne' en ed
    rw [key, abs_div, abs_mul, abs_of_nonneg (sq_nonneg e), abs_of_pos (by positivity : 0 < y.d (1 + e) ^ 2 * y.d 1), div_le_iff₀ (by positivity)]
    have hgd : 2 * y.g' (1 + e) * e ^ 2 * (y.d (1 + e) ^ 2 * y.d 1) = e ^ 2 * (2 * (y.n' (1 + e) * y.d (1 + e) - y.n (1 + e) * y.d' (1 + e)) * y.d 1) := by
      exact quot_key2 hD.ne'
    rw [hgd]
    apply mul_le_mul_of_nonneg_left _ (sq_nonneg e)
    generalize y.n' (1 + e) * y.d (1 + e) - y.n (1 + e) * y.d' (1 + e) = W at *
    have m1 : |-(y.d' (1 + e)) + e * rd| ≤ 206 / 1000 := by
      have c1 := abs_le.1 a5
      have c2 := abs_le.1 (bd he bdd)
      rw [abs_le]
      norm_num at c2
      constructor <;> linarith
    have m2 : |y.n (1 + e) * rd - rn * y.d (1 + e)| ≤ 714 / 1000 := by
      have c1 := abs_le.1 (bd (abs_le.2 ⟨by linarith [a2.1], a2.2⟩ : |y.n (1 + e)| ≤ 1166 / 1000) bdd)
      have c2 := abs_le.1 (bd bn (abs_le.2 ⟨by linarith [a1.1], a1.2⟩ : |y.d (1 + e)| ≤ 106 / 100))
      rw [abs_le]
      norm_num at c1 c2
      constructor <;> linarith
    have m3 : |W * (-(y.d' (1 + e)) + e * rd)| ≤ W * (206 / 1000) := by
      rw [abs_mul, abs_of_nonneg (by linarith : 0 ≤ W)]
      exact mul_le_mul_of_nonneg_left m1 (by linarith)
    have m4 := bd m2 (abs_le.2 ⟨by linarith [a1.1], a1.2⟩ : |y.d (1 + e)| ≤ 106 / 100)
    have m5 : W * (153 / 160) ≤ W * y.d 1 := mul_le_mul_of_nonneg_left hd1.1 (by linarith)
    have m6 := abs_le.1 m3
    have m7 := abs_le.1 m4
    rw [abs_le]
    norm_num at m6 m7
    constructor <;> linarith

/-! ### C112 -/

theorem coef_abs {d : List ℝ} {B : ℝ} (hB : 0 ≤ B) (h : ∀ c ∈ d, |c| ≤ B) (i : Nat) : |coef d i| ≤ B := by
  unfold coef
  rw [List.getD_eq_getElem?_getD]
  cases hi : d[i]? with
  | none => simpa using hB
  | some c => exact h c (List.mem_of_getElem? hi)

theorem dcoef_abs {d : List ℝ} {B : ℝ} (hB : 0 ≤ B) (h : ∀ c ∈ d, |c| ≤ B) (i : Nat) : |dcoef d i| ≤ B := by
  unfold dcoef
  split
  · exact coef_abs hB h i
  · simpa using hB

theorem radius_abs {p : V2} (hx : |p.x| ≤ 1 / 2) (hy : |p.y| ≤ 1 / 2) (n : Nat) : |(p.x * p.x + p.y * p.y) ^ n| ≤ (1 / 2) ^ n := by
  have h1 := abs_le.1 hx
  have h2 := abs_le.1 hy
  rw [abs_pow]
  apply pow_le_pow_left₀ (abs_nonneg _)
  rw [abs_of_nonneg (add_nonneg (mul_self_nonneg _) (mul_self_nonneg _))]
  nlinarith

/-- What C112 says, for every model without tangential coefficients up to seven coefficients (k1, k2, 0, 0, k3 of any sign) - the same bounds on the
    coefficients and points as in `C112_statement`. -/
theorem C112_polynomial_partial {solve : M2 → V2 → V2} (hs : ExactSolver solve) (d : List ℝ) (p : V2) (hd : ∀ c ∈ d, |c| ≤ 1 / 10)
    (h2 : d.getD 2 0 = 0) (h3 : d.getD 3 0 = 0) (hl : d.length < 8) (hx : |p.x| ≤ 1 / 2) (hy : |p.y| ≤ 1 / 2) :
    V2.dist (undistort solve d (distort d p)) p < 1e-9 := by
  have hc := fun i => coef_abs (by norm_num : (0 : ℝ) ≤ 1 / 10) hd i
  have hz : ∀ i, dcoef d i = 0 := by intro i; unfold dcoef; rw [if_neg (by omega)]
  refine undistort_ray hs h2 h3 (good_poly ?_ ?_ ?_ ?_ ?_ ?_) (by linarith) (by linarith)
  · have := bd (radius_abs hx hy 1) (hc 0)
    rw [pow_one] at this
    exact le_trans this (by norm_num)
  · exact le_trans (bd (radius_abs hx hy 2) (hc 1)) (by norm_num)
  · exact le_trans (bd (radius_abs hx hy 3) (hc 4)) (by norm_num)
  · show _ * dcoef d 5 = 0; rw [hz, mul_zero]
  · show _ * dcoef d 6 = 0; rw [hz, mul_zero]
  · show _ * dcoef d 7 = 0; rw [hz, mul_zero]

/-- The rational model (eight coefficients and more), with coefficients of at most 1/20. -/
theorem C112_rational_partial {solve : M2 → V2 → V2} (hs : ExactSolver solve) (d : List ℝ) (p : V2) (hd : ∀ c ∈ d, |c| ≤ 1 / 20)
    (h2 : d.getD 2 0 = 0) (h3 : d.getD 3 0 = 0) (hx : |p.x| ≤ 1 / 2) (hy : |p.y| ≤ 1 / 2) :
    V2.dist (undistort solve d (distort d p)) p < 1e-9 := by
  have hc := fun i => coef_abs (by norm_num : (0 : ℝ) ≤ 1 / 20) hd i
  have hc' := fun i => dcoef_abs (by norm_num : (0 : ℝ) ≤ 1 / 20) hd i
  refine undistort_ray hs h2 h3 (good_rational ?_ ?_ ?_ ?_ ?_ ?_) (by linarith) (by linarith)
  · have := bd (radius_abs hx hy 1) (hc 0)
    rw [pow_one] at this
    exact le_trans this (by norm_num)
  · exact le_trans (bd (radius_abs hx hy 2) (hc 1)) (by norm_num)
  · exact le_trans (bd (radius_abs hx hy 3) (hc 4)) (by norm_num)
  · have := bd (radius_abs hx hy 1) (hc' 5)
    rw [pow_one] at this
    exact le_trans this (by norm_num)
  · exact le_trans (bd (radius_abs hx hy 2) (hc' 6)) (by norm_num)
  · exact le_trans (bd (radius_abs hx hy 3) (hc' 7)) (by norm_num)

/-- And so for whole intrinsics with such coefficients: mapping a point to the image and back is off by less than 1e-9. -/
theorem C112_unmap_partial {solve : M2 → V2 → V2} (hs : ExactSolver solve) (k : Intr) (hf : k.f ≠ 0) (ha : k.aspect ≠ 0) (p : V2)
    (hd : (∀ c ∈ k.d, |c| ≤ 1 / 10) ∧ k.d.length < 8 ∨ (∀ c ∈ k.d, |c| ≤ 1 / 20)) (h2 : k.d.getD 2 0 = 0) (h3 : k.d.getD 3 0 = 0)
    (hx : |p.x| ≤ 1 / 2) (hy : |p.y| ≤ 1 / 2) : V2.dist (k.unmap solve (k.map p)) p < 1e-9 := by
  rw [(C60_calibration hf ha solve p).1]
  rcases hd with hd | hd
  · exact C112_polynomial_partial hs k.d p hd.1 h2 h3 hd.2 hx hy
  · exact C112_rational_partial hs k.d p hd h2 h3 hx hy

/-- Barrel distortion with three radial coefficients, and a rational model, that move the point. -/
example : (∀ c ∈ [-1 / 10, 1 / 20, 0, 0, -1 / 50], |c| ≤ (1 / 10 : ℝ)) ∧ ([-1 / 10, 1 / 20, 0, 0, -1 / 50] : List ℝ).getD 2 0 = 0 ∧
    distort [-1 / 10, 1 / 20, 0, 0, -1 / 50] ⟨1 / 2, 0⟩ ≠ ⟨1 / 2, 0⟩ := by
  refine ⟨?_, rfl, ?_⟩
  · intro c hc
    simp at hc
    rcases hc with rfl | rfl | rfl | rfl | rfl <;> norm_num [abs_of_nonneg, abs_of_neg]
  · intro h
    have := congrArg V2.x h
    unfold distort radialScale offset at this
    simp [coef] at this
    norm_num at this

example : (∀ c ∈ [1 / 20, 0, 0, 0, 0, -1 / 20, 0, 1 / 30], |c| ≤ (1 / 20 : ℝ)) ∧ distort [1 / 20, 0, 0, 0, 0, -1 / 20, 0, 1 / 30] ⟨1 / 2, 0⟩ ≠ ⟨1 / 2, 0⟩ := by
  refine ⟨?_, ?_⟩
  · intro c hc
    simp at hc
    rcases hc with rfl | rfl | rfl | rfl | rfl <;> norm_num [abs_of_nonneg, abs_of_neg]
  · intro h
    have := congrArg V2.x h
    unfold distort radialScale offset at this
    simp [coef] at this
    norm_num at this

end Vital.Geo
