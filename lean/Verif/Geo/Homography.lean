import Verif.Geo.Ypr
/- Homographies (vital/types/homography.{h,cxx}, homography_f2f.{h,cxx}): properties C59 and C106. -/
namespace Vital.Geo

/-- The exceptions of this part. -/
inductive HErr
  | pointMapsToInfinity | nonInvertible | invalidOperation
  deriving DecidableEq

/-- The entries used to invert a 3x3 matrix. -/
-- models: Eigen/src/LU/InverseImpl.h (cofactors and inverse of a 3x3 matrix)
noncomputable def M3.inv (m : M3) : M3 :=
  let c0 := m.r1.cross m.r2
  let c1 := m.r2.cross m.r0
  let c2 := m.r0.cross m.r1
  ⟨⟨c0.x / m.det, c1.x / m.det, c2.x / m.det⟩, ⟨c0.y / m.det, c1.y / m.det, c2.y / m.det⟩, ⟨c0.z / m.det, c1.z / m.det, c2.z / m.det⟩⟩

/-- `homography_<T>`: its matrix. -/
-- models: vital/types/homography.h (member h_)
structure Homography where
  h : M3

namespace Homography

-- models: vital/types/homography.cxx:68-72 (default constructor)
def identity : Homography := ⟨M3.one⟩

/-- `eps` is `Eigen::NumTraits<T>::dummy_precision()`: 1e-12 for double, 1e-5 for float. -/
-- models: vital/types/homography.cxx:49-62, 192-220, 250-280 (h_map_point, map, map_point)
noncomputable def map (eps : ℝ) (a : Homography) (p : V2) : Except HErr V2 :=
  let o := a.h.mulVec ⟨p.x, p.y, 1⟩
  open Classical in
  if |o.z| ≤ eps then .error .pointMapsToInfinity else .ok ⟨o.x / o.z, o.y / o.z⟩

-- models: vital/types/homography.cxx:155-169 (normalize)
noncomputable def normalize (eps : ℝ) (a : Homography) : Homography :=
  open Classical in
  if eps ≤ |a.h.r2.z| then ⟨⟨a.h.r0.div a.h.r2.z, a.h.r1.div a.h.r2.z, a.h.r2.div a.h.r2.z⟩⟩ else a

-- models: vital/types/homography.cxx:172-189 (inverse), Eigen's computeInverseWithCheck
noncomputable def inverse (eps : ℝ) (a : Homography) : Except HErr Homography :=
  open Classical in
  if eps < |a.h.det| then .ok ⟨a.h.inv⟩ else .error .nonInvertible

-- models: vital/types/homography.cxx:283-291 (operator*)
noncomputable def compose (a b : Homography) : Homography := ⟨a.h.mul b.h⟩

end Homography

open Homography

/-! ### Specification -/

/-- The projective map of a matrix: where it is defined, the image of `p` is the point with homogeneous coordinates `h (p, 1)`. -/
def MapsTo (h : M3) (p q : V2) : Prop := ∃ w : ℝ, w ≠ 0 ∧ h.mulVec ⟨p.x, p.y, 1⟩ = w • (⟨q.x, q.y, 1⟩ : V3)

theorem mapsTo_unique {h : M3} {p q r : V2} (h1 : MapsTo h p q) (h2 : MapsTo h p r) : q = r := by
  obtain ⟨w, hw, e1⟩ := h1
  obtain ⟨u, hu, e2⟩ := h2
  rw [e1] at e2
  have ex := congrArg V3.x e2
  have ey := congrArg V3.y e2
  have ez := congrArg V3.z e2
  simp only [V3.smul_x, V3.smul_y, V3.smul_z, mul_one] at ex ey ez
  subst ez
  ext
  · exact mul_left_cancel₀ hw ex
  · exact mul_left_cancel₀ hw ey

theorem mulVec_smul (m : M3) (s : ℝ) (v : V3) : m.mulVec (s • v) = s • m.mulVec v := by
  unfold M3.mulVec V3.dot
  ext <;> simp only [V3.smul_x, V3.smul_y, V3.smul_z] <;> ring

/-- C106: `map` returns the image under the projective map, and throws exactly when the third homogeneous coordinate is at most
    `eps` in absolute value. -/
theorem C106_map {eps : ℝ} (he : 0 ≤ eps) (a : Homography) (p : V2) :
    ((map eps a p = .error .pointMapsToInfinity) ↔ |(a.h.mulVec ⟨p.x, p.y, 1⟩).z| ≤ eps) ∧
    (∀ q, map eps a p = .ok q → MapsTo a.h p q) ∧ (∀ e, map eps a p = .error e → e = .pointMapsToInfinity) := by
  unfold Homography.map
  simp only
  by_cases h : |(a.h.mulVec ⟨p.x, p.y, 1⟩).z| ≤ eps
  · rw [if_pos h]
    refine ⟨⟨fun _ => h, fun _ => rfl⟩, fun q hq => (by cases hq), fun e he => ?_⟩
    injection he with he
    exact he.symm
  · rw [if_neg h]
    refine ⟨⟨fun hc => (by cases hc), fun hc => absurd hc h⟩, ?_, fun e he => by cases he⟩
    intro q hq
    injection hq with hq
    subst hq
    have hz : (a.h.mulVec ⟨p.x, p.y, 1⟩).z ≠ 0 := by
      intro e
      rw [e, abs_zero] at h
      exact h he
    refine ⟨_, hz, ?_⟩
    ext <;> simp only [V3.smul_x, V3.smul_y, V3.smul_z]
    · field_simp
    · field_simp
    · ring

/-- Composition of projective maps. -/
theorem mapsTo_compose {g h : M3} {p q r : V2} (h1 : MapsTo h p q) (h2 : MapsTo g q r) : MapsTo (g.mul h) p r := by
  obtain ⟨w, hw, e1⟩ := h1
  obtain ⟨u, hu, e2⟩ := h2
  refine ⟨w * u, mul_ne_zero hw hu, ?_⟩
  rw [mulVec_mul, e1, mulVec_smul, e2]
  ext <;> simp only [V3.smul_x, V3.smul_y, V3.smul_z] <;> ring

/-- C106: the product maps a point to the image of its image. -/
theorem C106_compose {eps : ℝ} (he : 0 ≤ eps) {a b : Homography} {p q r s : V2} (h1 : map eps b p = .ok q) (h2 : map eps a q = .ok r)
    (h3 : map eps (a.compose b) p = .ok s) : s = r :=
  mapsTo_unique ((C106_map he _ p).2.1 s h3) (mapsTo_compose ((C106_map he b p).2.1 q h1) ((C106_map he a q).2.1 r h2))

/-- The full claim: whenever the two maps succeed, so does the product. -/
def C106_statement (eps : ℝ) : Prop := ∀ (a b : Homography) (p q r : V2), map eps b p = .ok q → map eps a q = .ok r →
  map eps (a.compose b) p = .ok r

theorem map_scalar {eps s : ℝ} (p : V2) : map eps ⟨⟨⟨s, 0, 0⟩, ⟨0, s, 0⟩, ⟨0, 0, s⟩⟩⟩ p = if |s| ≤ eps then .error .pointMapsToInfinity else .ok ⟨s * p.x / s, s * p.y / s⟩ := by
  unfold Homography.map M3.mulVec V3.dot
  simp

/-- It is false for both thresholds in use (and for every one between 0 and 1): the test compares with a fixed threshold, although
    a homography is only defined up to scale. -/
theorem C106_refuted {eps : ℝ} (h0 : 0 < eps) (h1 : eps < 1) : ¬ C106_statement eps := by
  intro h
  have hs := Real.mul_self_sqrt h0.le
  have hp := Real.sqrt_pos.2 h0
  have hlt : eps < Real.sqrt eps := by
    have h2 : Real.sqrt eps < 1 := by
      by_contra hc
      have hc := not_lt.1 hc
      have := mul_le_mul hc hc zero_le_one hp.le
      linarith
    calc eps = Real.sqrt eps * Real.sqrt eps := hs.symm
      _ < Real.sqrt eps * 1 := mul_lt_mul_of_pos_left h2 hp
      _ = Real.sqrt eps := mul_one _
  generalize Real.sqrt eps = s at *
  have hm : ∀ p : V2, map eps ⟨⟨⟨s, 0, 0⟩, ⟨0, s, 0⟩, ⟨0, 0, s⟩⟩⟩ p = .ok p := by
    intro p
    rw [map_scalar, if_neg (by rw [abs_of_pos hp]; linarith)]
    congr 1
    ext <;> simp only <;> field_simp
  have := h _ _ ⟨0, 0⟩ _ _ (hm _) (hm _)
  have hc : Homography.compose ⟨⟨⟨s, 0, 0⟩, ⟨0, s, 0⟩, ⟨0, 0, s⟩⟩⟩ ⟨⟨⟨s, 0, 0⟩, ⟨0, s, 0⟩, ⟨0, 0, s⟩⟩⟩ =
      ⟨⟨⟨eps, 0, 0⟩, ⟨0, eps, 0⟩, ⟨0, 0, eps⟩⟩⟩ := by
    unfold Homography.compose M3.mul M3.transpose V3.dot
    congr 1
    ext <;> simp [hs]
  rw [hc, map_scalar, if_pos (by rw [abs_of_pos h0])] at this
  cases this

theorem inv_mul {m : M3} (h : m.det ≠ 0) : m.inv.mul m = M3.one ∧ m.mul m.inv = M3.one := by
  constructor
  all_goals
    unfold M3.inv M3.mul M3.transpose M3.one V3.dot
    simp only
    ext <;> simp only <;> field_simp <;> simp only [M3.det, V3.dot, V3.cross] <;> ring

theorem one_mulVec (v : V3) : M3.one.mulVec v = v := by
  unfold M3.one M3.mulVec V3.dot
  ext <;> simp

/-- C106: the inverse is the inverse matrix; it throws exactly for matrices whose determinant is at most `eps` in absolute
    value; and it maps the image of a point back to the point. -/
theorem C106_inverse {eps : ℝ} (he : 0 ≤ eps) (a : Homography) :
    ((∃ e, inverse eps a = .error e) ↔ |a.h.det| ≤ eps) ∧
    ∀ g, inverse eps a = .ok g → g.h.mul a.h = M3.one ∧ a.h.mul g.h = M3.one ∧
      ∀ p q r, map eps a p = .ok q → map eps g q = .ok r → r = p := by
  unfold Homography.inverse
  by_cases h : eps < |a.h.det|
  · rw [if_pos h]
    refine ⟨⟨fun hc => (by obtain ⟨e, hc⟩ := hc; cases hc), fun hc => absurd h (not_lt.2 hc)⟩, ?_⟩
    intro g hg
    injection hg with hg
    subst hg
    have hd : a.h.det ≠ 0 := by
      intro e
      rw [e, abs_zero] at h
      linarith
    obtain ⟨m1, m2⟩ := inv_mul hd
    refine ⟨m1, m2, ?_⟩
    intro p q r h1 h2
    have hc := mapsTo_compose ((C106_map he a p).2.1 q h1) ((C106_map he _ q).2.1 r h2)
    simp only at hc
    rw [m1] at hc
    exact mapsTo_unique hc ⟨1, one_ne_zero, by rw [one_mulVec, one_smul]⟩
  · rw [if_neg h]
    exact ⟨⟨fun _ => not_lt.1 h, fun _ => ⟨_, rfl⟩⟩, fun g hg => by cases hg⟩

/-- C106: the normalized homography has one in the lower right corner, unless that entry is smaller than `eps`, and maps points as
    before. -/
theorem C106_normalize {eps : ℝ} (he : 0 < eps) (a : Homography) :
    (eps ≤ |a.h.r2.z| → (normalize eps a).h.r2.z = 1) ∧
    ∀ p q r, map eps a p = .ok q → map eps (normalize eps a) p = .ok r → r = q := by
  unfold Homography.normalize
  by_cases h : eps ≤ |a.h.r2.z|
  · rw [if_pos h]
    have hz : a.h.r2.z ≠ 0 := by
      intro e
      rw [e, abs_zero] at h
      linarith
    refine ⟨fun _ => by simp only [V3.div]; exact div_self hz, ?_⟩
    intro p q r h1 h2
    obtain ⟨w, hw, e⟩ := (C106_map he.le a p).2.1 q h1
    refine mapsTo_unique ((C106_map he.le _ p).2.1 r h2) ⟨w / a.h.r2.z, div_ne_zero hw hz, ?_⟩
    have ex := congrArg V3.x e
    have ey := congrArg V3.y e
    have ez := congrArg V3.z e
    simp only [M3.mulVec, V3.dot, V3.smul_x, V3.smul_y, V3.smul_z, V3.div] at *
    ext <;> simp only [V3.smul_x, V3.smul_y, V3.smul_z]
    · field_simp
      linarith
    · field_simp
      linarith
    · field_simp
      linarith
  · rw [if_neg h]
    refine ⟨fun hc => absurd hc h, ?_⟩
    intro p q r h1 h2
    rw [h1] at h2
    injection h2 with h2
    exact h2.symm

/-- A perspective map that moves a point and is inverted. -/
example : map (1 / 1000) ⟨⟨⟨1, 0, 1⟩, ⟨0, 1, 0⟩, ⟨1, 0, 1⟩⟩⟩ ⟨1, 2⟩ = .ok ⟨1, 1⟩ ∧ map (1 / 1000) ⟨⟨⟨1, 0, 1⟩, ⟨0, 1, 0⟩, ⟨1, 0, 1⟩⟩⟩ ⟨-1, 0⟩ = .error .pointMapsToInfinity := by
  constructor
  · unfold Homography.map M3.mulVec V3.dot
    simp only
    rw [if_neg (by norm_num [abs_of_pos])]
    norm_num
  · unfold Homography.map M3.mulVec V3.dot
    simp only
    rw [if_pos (by norm_num)]

/-! ### C59: frame to frame homographies -/

-- models: vital/types/homography_f2f.h (members)
structure F2F where
  h : Homography
  fromId : Int
  toId : Int

namespace F2F

-- models: vital/types/homography_f2f.cxx:46-51 (constructor of the identity)
def identity (id : Int) : F2F := ⟨Homography.identity, id, id⟩

-- models: vital/types/homography_f2f.cxx:100-104 (inverse)
noncomputable def inverse (eps : ℝ) (a : F2F) : Except HErr F2F :=
  match a.h.inverse eps with
  | .ok g => .ok ⟨g, a.toId, a.fromId⟩
  | .error e => .error e

-- models: vital/types/homography_f2f.cxx:107-119 (operator*)
noncomputable def compose (a b : F2F) : Except HErr F2F :=
  if a.fromId ≠ b.toId then .error .invalidOperation else .ok ⟨a.h.compose b.h, b.fromId, a.toId⟩

end F2F

theorem m3_mul_assoc (a b c : M3) : (a.mul b).mul c = a.mul (b.mul c) := by
  apply matrix_ext
  intro v
  rw [mulVec_mul, mulVec_mul, mulVec_mul, mulVec_mul]

theorem m3_one_mul (a : M3) : M3.one.mul a = a ∧ a.mul M3.one = a := by
  constructor
  · apply matrix_ext
    intro v
    rw [mulVec_mul, one_mulVec]
  · apply matrix_ext
    intro v
    rw [mulVec_mul, one_mulVec]

/-- C59: the product is defined exactly when the right factor maps into the source frame of the left one; it maps from the
    source of the right factor to the target of the left one, with the product matrix. -/
theorem C59_compose (a b : F2F) :
    (a.fromId ≠ b.toId → a.compose b = .error .invalidOperation) ∧
    (a.fromId = b.toId → ∃ c, a.compose b = .ok c ∧ c.fromId = b.fromId ∧ c.toId = a.toId ∧
      ∀ v, c.h.h.mulVec v = a.h.h.mulVec (b.h.h.mulVec v)) := by
  unfold F2F.compose
  constructor
  · intro h
    rw [if_pos h]
  · intro h
    rw [if_neg (by simpa using h)]
    exact ⟨_, rfl, rfl, rfl, fun v => mulVec_mul _ _ v⟩

/-- C59: the inverse swaps the frames and inverts the matrix; it exists exactly when the matrix is invertible (determinant above
    `eps` in absolute value). -/
theorem C59_inverse {eps : ℝ} (he : 0 ≤ eps) (a : F2F) :
    ((∃ e, a.inverse eps = .error e) ↔ |a.h.h.det| ≤ eps) ∧
    ∀ b, a.inverse eps = .ok b → b.fromId = a.toId ∧ b.toId = a.fromId ∧
      (∃ c, a.compose b = .ok c ∧ c = F2F.identity a.toId) ∧ (∃ c, b.compose a = .ok c ∧ c = F2F.identity a.fromId) := by
  have hi := C106_inverse he a.h
  unfold F2F.inverse
  cases hg : a.h.inverse eps with
  | error e =>
    rw [hg] at hi
    exact ⟨⟨fun _ => hi.1.1 ⟨e, rfl⟩, fun _ => ⟨e, rfl⟩⟩, fun b hb => by cases hb⟩
  | ok g =>
    rw [hg] at hi
    refine ⟨⟨fun hc => (by obtain ⟨e, hc⟩ := hc; cases hc), fun hc => (by obtain ⟨e, hc⟩ := hi.1.2 hc; cases hc)⟩, ?_⟩
    intro b hb
    injection hb with hb
    subst hb
    obtain ⟨m1, m2, _⟩ := hi.2 g rfl
    refine ⟨rfl, rfl, ?_, ?_⟩
    · refine ⟨⟨⟨a.h.h.mul g.h⟩, a.toId, a.toId⟩, by simp [F2F.compose, Homography.compose], ?_⟩
      rw [m2]
      rfl
    · refine ⟨⟨⟨g.h.mul a.h.h⟩, a.fromId, a.fromId⟩, by simp [F2F.compose, Homography.compose], ?_⟩
      rw [m1]
      rfl

/-- C59: composition is associative, including which combinations are refused, and the identity of a frame is neutral. -/
theorem C59_assoc (a b c : F2F) :
    (a.compose b).bind (fun ab => ab.compose c) = (b.compose c).bind (fun bc => a.compose bc) ∧
    (F2F.identity a.toId).compose a = .ok a ∧ a.compose (F2F.identity a.fromId) = .ok a := by
  refine ⟨?_, ?_, ?_⟩
  · unfold F2F.compose
    by_cases h1 : a.fromId = b.toId
    · by_cases h2 : b.fromId = c.toId
      · simp [h1, h2, Except.bind, Homography.compose, m3_mul_assoc]
      · simp [h1, h2, Except.bind]
    · by_cases h2 : b.fromId = c.toId
      · simp [h1, h2, Except.bind]
      · simp [h1, h2, Except.bind]
  · simp [F2F.compose, F2F.identity, Homography.compose, Homography.identity, (m3_one_mul _).1]
  · simp [F2F.compose, F2F.identity, Homography.compose, Homography.identity, (m3_one_mul _).2]

/-- Two composable homographies, and two that are not. -/
example : (∃ c, (⟨⟨⟨⟨2, 0, 0⟩, ⟨0, 2, 0⟩, ⟨0, 0, 1⟩⟩⟩, 5, 7⟩ : F2F).compose ⟨Homography.identity, 3, 5⟩ = .ok c ∧ c.fromId = 3 ∧ c.toId = 7) ∧
    (⟨Homography.identity, 5, 7⟩ : F2F).compose ⟨Homography.identity, 3, 4⟩ = .error .invalidOperation := by
  constructor
  · exact ⟨⟨Homography.compose ⟨⟨⟨2, 0, 0⟩, ⟨0, 2, 0⟩, ⟨0, 0, 1⟩⟩⟩ Homography.identity, 3, 7⟩, by simp [F2F.compose], rfl, rfl⟩
  · simp [F2F.compose]

end Vital.Geo
