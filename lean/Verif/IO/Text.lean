import Verif.Basic.Stream
/-
  Text forms of colours, features, landmarks, rotations, similarities and cameras.

  Floating point numbers are values of an arbitrary type with an abstract text format (`NumFmt`).  A local
  variable that the code leaves uninitialised holds an arbitrary value (`junk`).  Covariances are not part
  of any text form.
-/
namespace Vital.IO
open Vital Vital.Stream

variable {ν : Type}

/-- The exceptions of the readers and writers of vital/io. -/
inductive Exc
  | invalidData | fileNotFound | fileNotRead | fileWrite | pathNotExists
  deriving DecidableEq

abbrev Byte := Fin 256

/-- `static_cast<unsigned char>( int )` -/
def toByte (v : Int) : Byte := ⟨(v % 256).toNat, by omega⟩

-- models: vital/types/color.h:47-62 (rgb_color; white by default)
structure Color where
  r : Byte := 255
  g : Byte := 255
  b : Byte := 255
  deriving DecidableEq

structure Vec2 (ν : Type) where
  x : ν
  y : ν
  deriving DecidableEq

structure Vec3 (ν : Type) where
  x : ν
  y : ν
  z : ν
  deriving DecidableEq

-- models: vital/types/feature.h:163-177 (data members; the covariance is not written)
structure Feature (ν : Type) where
  loc : Vec2 ν
  magnitude : ν
  scale : ν
  angle : ν
  color : Color
  deriving DecidableEq

-- models: vital/types/landmark.h:172-188 (data members; the covariance is not written)
structure Landmark (ν : Type) where
  loc : Vec3 ν
  scale : ν
  normal : Vec3 ν
  color : Color
  observations : Fin 4294967296
  deriving DecidableEq

/-- Quaternion coefficients in Eigen's storage order. -/
structure Quat (ν : Type) where
  x : ν
  y : ν
  z : ν
  w : ν
  deriving DecidableEq

-- models: vital/types/similarity.h:147-153 (data members)
structure Similarity (ν : Type) where
  scale : ν
  rot : Quat ν
  trans : Vec3 ν
  deriving DecidableEq

/-! ### Output -/

-- models: vital/types/color.h:83-92 (operator<<)
def colorText (c : Color) : Str := natStr c.r.val ++ c!" " ++ natStr c.g.val ++ c!" " ++ natStr c.b.val

-- models: vital/types/feature.cxx:43-53 and 95-108 (operator<<); the location is written as a row
def featureText (f : NumFmt ν) (x : Feature ν) : Str :=
  eigenText [[f.text x.loc.x, f.text x.loc.y]] ++ c!" " ++ f.text x.magnitude ++ c!" " ++ f.text x.scale ++ c!" " ++
    f.text x.angle ++ c!" " ++ colorText x.color

/-- A column vector. -/
def columnText (f : NumFmt ν) (v : Vec3 ν) : Str := eigenText [[f.text v.x], [f.text v.y], [f.text v.z]]

-- models: vital/types/landmark.cxx:45-55 and 94-105 (operator<<); the vectors are written as columns
def landmarkText (f : NumFmt ν) (m : Landmark ν) : Str :=
  columnText f m.loc ++ c!" " ++ f.text m.scale ++ c!" " ++ columnText f m.normal ++ c!" " ++ colorText m.color ++ c!" " ++
    natStr m.observations.val

-- models: vital/types/rotation.cxx:229-235 (operator<<)
def rotationText (f : NumFmt ν) (q : Quat ν) : Str := eigenText [[f.text q.x], [f.text q.y], [f.text q.z], [f.text q.w]]

-- models: vital/types/similarity.cxx:116-122 (operator<<)
def similarityText (f : NumFmt ν) (t : Similarity ν) : Str :=
  f.text t.scale ++ c!" " ++ rotationText f t.rot ++ c!" " ++ columnText f t.trans

/-! ### Input -/

/-- One coefficient of a matrix; an extraction that fails throws. -/
-- models: vital/io/eigen_io.h:66-70
def readCoef (f : NumFmt ν) (junk : ν) (s : IStr) : Except Exc (IStr × ν) :=
  match extract f.parse s junk with
  | (none, _) => .error .invalidData
  | (some t, x) => .ok (some t, x)

/-- `n` coefficients. -/
-- models: vital/io/eigen_io.h:57-74 (operator>> for a matrix with `n` coefficients of static size)
def readCoefs (f : NumFmt ν) (junk : ν) : Nat → IStr → Except Exc (IStr × List ν)
  | 0, s => .ok (s, [])
  | n + 1, s =>
    match readCoef f junk s with
    | .error e => .error e
    | .ok (t, x) =>
      match readCoefs f junk n t with
      | .error e => .error e
      | .ok (u, l) => .ok (u, x :: l)

def readVec2 (f : NumFmt ν) (junk : ν) (s : IStr) : Except Exc (IStr × Vec2 ν) :=
  match readCoefs f junk 2 s with
  | .ok (t, [x, y]) => .ok (t, ⟨x, y⟩)
  | .ok (_, _) => .error .invalidData
  | .error e => .error e

def readVec3 (f : NumFmt ν) (junk : ν) (s : IStr) : Except Exc (IStr × Vec3 ν) :=
  match readCoefs f junk 3 s with
  | .ok (t, [x, y, z]) => .ok (t, ⟨x, y, z⟩)
  | .ok (_, _) => .error .invalidData
  | .error e => .error e

/-- `int` -/
def cInt : Extractor Int := intEx (-2147483648) 2147483647
/-- `int64_t` -/
def cInt64 : Extractor Int := intEx (-9223372036854775808) 9223372036854775807
/-- `unsigned int` -/
def cUnsigned : Extractor Nat := natEx 4294967296

-- models: vital/types/color.h:95-106 (operator>>)
def readColor (s : IStr) : IStr × Color :=
  match extract cInt s 255 with
  | (s1, rv) =>
    match extract cInt s1 255 with
    | (s2, gv) =>
      match extract cInt s2 255 with
      | (s3, bv) => (s3, ⟨toByte rv, toByte gv, toByte bv⟩)

-- models: vital/types/feature.cxx:111-134 (operator>>); `junk` are the uninitialised locals
def readFeature (f : NumFmt ν) (junk : Nat → ν) (s : IStr) : Except Exc (IStr × Feature ν) :=
  match readVec2 f (junk 0) s with
  | .error e => .error e
  | .ok (s1, loc) =>
    match extract f.parse s1 (junk 1) with
    | (s2, magnitude) =>
      match extract f.parse s2 (junk 2) with
      | (s3, scale) =>
        match extract f.parse s3 (junk 3) with
        | (s4, angle) =>
          match readColor s4 with
          | (s5, color) => .ok (s5, ⟨loc, magnitude, scale, angle, color⟩)

/-- `unsigned` value as stored -/
def toUnsigned (n : Nat) : Fin 4294967296 := ⟨n % 4294967296, by omega⟩

-- models: vital/types/landmark.cxx:108-132 (operator>>); `junkObs` is the uninitialised counter
def readLandmark (f : NumFmt ν) (junk : Nat → ν) (junkObs : Nat) (s : IStr) : Except Exc (IStr × Landmark ν) :=
  match readVec3 f (junk 0) s with
  | .error e => .error e
  | .ok (s1, loc) =>
    match extract f.parse s1 (junk 1) with
    | (s2, scale) =>
      match readVec3 f (junk 2) s2 with
      | .error e => .error e
      | .ok (s3, normal) =>
        match readColor s3 with
        | (s4, color) =>
          match extract cUnsigned s4 junkObs with
          | (s5, obs) => .ok (s5, ⟨loc, scale, normal, color, toUnsigned obs⟩)

-- models: vital/types/rotation.cxx:238-249 (operator>>) with rotation.h:70-72 (Eigen's quaternion constructor
-- from a 4-vector takes the coefficients in storage order)
def readRotation (f : NumFmt ν) (junk : ν) (s : IStr) : Except Exc (IStr × Quat ν) :=
  match readCoefs f junk 4 s with
  | .ok (t, [x, y, z, w]) => .ok (t, ⟨x, y, z, w⟩)
  | .ok (_, _) => .error .invalidData
  | .error e => .error e

-- models: vital/types/similarity.cxx:125-137 (operator>>)
def readSimilarity (f : NumFmt ν) (junk : Nat → ν) (s : IStr) : Except Exc (IStr × Similarity ν) :=
  match extract f.parse s (junk 0) with
  | (s1, sc) =>
    match readRotation f (junk 1) s1 with
    | .error e => .error e
    | .ok (s2, ro) =>
      match readVec3 f (junk 2) s2 with
      | .error e => .error e
      | .ok (s3, tr) => .ok (s3, ⟨sc, ro, tr⟩)

/-! ### Specification: values up to the printed precision -/

def Vec2.map (g : ν → ν) (v : Vec2 ν) : Vec2 ν := ⟨g v.x, g v.y⟩
def Vec3.map (g : ν → ν) (v : Vec3 ν) : Vec3 ν := ⟨g v.x, g v.y, g v.z⟩
def Feature.map (g : ν → ν) (x : Feature ν) : Feature ν := ⟨x.loc.map g, g x.magnitude, g x.scale, g x.angle, x.color⟩
def Landmark.map (g : ν → ν) (m : Landmark ν) : Landmark ν := ⟨m.loc.map g, g m.scale, m.normal.map g, m.color, m.observations⟩
def Quat.map (g : ν → ν) (q : Quat ν) : Quat ν := ⟨g q.x, g q.y, g q.z, g q.w⟩
def Similarity.map (g : ν → ν) (t : Similarity ν) : Similarity ν := ⟨g t.scale, t.rot.map g, t.trans.map g⟩

def Vec2.All (p : ν → Prop) (v : Vec2 ν) : Prop := p v.x ∧ p v.y
def Vec3.All (p : ν → Prop) (v : Vec3 ν) : Prop := p v.x ∧ p v.y ∧ p v.z
/-- All numbers of the feature satisfy `p`. -/
def Feature.All (p : ν → Prop) (x : Feature ν) : Prop := x.loc.All p ∧ p x.magnitude ∧ p x.scale ∧ p x.angle
def Landmark.All (p : ν → Prop) (m : Landmark ν) : Prop := m.loc.All p ∧ p m.scale ∧ m.normal.All p
def Quat.All (p : ν → Prop) (q : Quat ν) : Prop := p q.x ∧ p q.y ∧ p q.z ∧ p q.w
def Similarity.All (p : ν → Prop) (t : Similarity ν) : Prop := p t.scale ∧ t.rot.All p ∧ t.trans.All p

/-! ### Words of the text forms -/

variable {f : NumFmt ν} {good : ν → Prop} {rnd : ν → ν}

def Word (w : Str) : Prop := w ≠ [] ∧ ∀ c ∈ w, isSpace c = false

theorem num_word (hf : f.Lawful good rnd) (x : ν) : Word (f.text x) := ⟨hf.nonempty x, hf.nospace x⟩
theorem nat_word (n : Nat) : Word (natStr n) := ⟨natStr_ne_nil n, natStr_no_space n⟩
theorem int_word (n : Int) : Word (intStr n) := ⟨intStr_ne_nil n, intStr_no_space n⟩

theorem Word.words {w : Str} (h : Word w) : IsWords [w] w := IsWords.one h.1 h.2

theorem color_words (c : Color) : IsWords [natStr c.r.val, natStr c.g.val, natStr c.b.val] (colorText c) :=
  ((nat_word _).words.blank (nat_word _).words (by simp)).blank (nat_word _).words (by simp)

theorem feature_words (hf : f.Lawful good rnd) (x : Feature ν) :
    IsWords [f.text x.loc.x, f.text x.loc.y, f.text x.magnitude, f.text x.scale, f.text x.angle,
      natStr x.color.r.val, natStr x.color.g.val, natStr x.color.b.val] (featureText f x) := by
  have h1 : IsWords [f.text x.loc.x, f.text x.loc.y] (eigenText [[f.text x.loc.x, f.text x.loc.y]]) :=
    eigenText_words [[f.text x.loc.x, f.text x.loc.y]] (by
      intro r hr
      simp at hr; subst hr
      refine ⟨by simp, ?_⟩
      intro w hw
      simp at hw
      rcases hw with rfl | rfl <;> exact num_word hf _)
  exact (h1.blank (num_word hf _).words (by simp)).blank (num_word hf _).words (by simp)
    |>.blank (num_word hf _).words (by simp) |>.blank (color_words _) (by simp)

theorem column_words (hf : f.Lawful good rnd) (v : Vec3 ν) : IsWords [f.text v.x, f.text v.y, f.text v.z] (columnText f v) :=
  eigenText_words [[f.text v.x], [f.text v.y], [f.text v.z]] (by
    intro r hr
    simp at hr
    rcases hr with rfl | rfl | rfl <;>
    · refine ⟨by simp, ?_⟩
      intro w hw
      simp at hw; subst hw
      exact num_word hf _)

theorem landmark_words (hf : f.Lawful good rnd) (m : Landmark ν) :
    IsWords [f.text m.loc.x, f.text m.loc.y, f.text m.loc.z, f.text m.scale, f.text m.normal.x, f.text m.normal.y, f.text m.normal.z,
      natStr m.color.r.val, natStr m.color.g.val, natStr m.color.b.val, natStr m.observations.val] (landmarkText f m) :=
  ((column_words hf m.loc).blank (num_word hf _).words (by simp)).blank (column_words hf m.normal) (by simp)
    |>.blank (color_words _) (by simp) |>.blank (nat_word _).words (by simp)

theorem rotation_words (hf : f.Lawful good rnd) (q : Quat ν) :
    IsWords [f.text q.x, f.text q.y, f.text q.z, f.text q.w] (rotationText f q) :=
  eigenText_words [[f.text q.x], [f.text q.y], [f.text q.z], [f.text q.w]] (by
    intro r hr
    simp at hr
    rcases hr with rfl | rfl | rfl | rfl <;>
    · refine ⟨by simp, ?_⟩
      intro w hw
      simp at hw; subst hw
      exact num_word hf _)

theorem similarity_words (hf : f.Lawful good rnd) (t : Similarity ν) :
    IsWords [f.text t.scale, f.text t.rot.x, f.text t.rot.y, f.text t.rot.z, f.text t.rot.w, f.text t.trans.x, f.text t.trans.y, f.text t.trans.z]
      (similarityText f t) :=
  (((num_word hf _).words.blank (rotation_words hf t.rot) (by simp)).blank (column_words hf t.trans) (by simp))

/-! ### Reading words -/

theorem readCoef_sep (hf : f.Lawful good rnd) {x junk : ν} (hx : good x) {rest s : Str} {l : List Str} (h : Sep rest (f.text x :: l) s) :
    ∃ t, readCoef f junk (some s) = .ok (some t, rnd x) ∧ Sep rest l t := by
  obtain ⟨t, h1, h2⟩ := h.extract (hf.reads hx) junk
  refine ⟨t, ?_, h2⟩
  unfold readCoef
  rw [h1]

theorem readCoefs_sep (hf : f.Lawful good rnd) {junk : ν} (xs : List ν) (hx : ∀ x ∈ xs, good x) {rest : Str} {l : List Str} :
    ∀ {s : Str}, Sep rest (xs.map f.text ++ l) s →
      ∃ t, readCoefs f junk xs.length (some s) = .ok (some t, xs.map rnd) ∧ Sep rest l t := by
  induction xs with
  | nil => intro s h; exact ⟨s, rfl, h⟩
  | cons x xs ih =>
    intro s h
    obtain ⟨t, h1, h2⟩ := readCoef_sep hf (junk := junk) (hx x (by simp)) h
    obtain ⟨u, h3, h4⟩ := ih (fun y hy => hx y (by simp [hy])) h2
    refine ⟨u, ?_, h4⟩
    show readCoefs f junk (xs.length + 1) (some s) = _
    unfold readCoefs
    rw [h1]
    simp only [h3]
    rfl

theorem readVec3_sep (hf : f.Lawful good rnd) {junk : ν} {v : Vec3 ν} (hv : v.All good) {rest : Str} {l : List Str} {s : Str}
    (h : Sep rest (f.text v.x :: f.text v.y :: f.text v.z :: l) s) :
    ∃ t, readVec3 f junk (some s) = .ok (some t, v.map rnd) ∧ Sep rest l t := by
  obtain ⟨t, h1, h2⟩ := readCoefs_sep hf (junk := junk) [v.x, v.y, v.z] (by
    intro x hx; simp at hx; rcases hx with rfl | rfl | rfl
    · exact hv.1
    · exact hv.2.1
    · exact hv.2.2) (l := l) h
  refine ⟨t, ?_, h2⟩
  unfold readVec3
  have h1' : readCoefs f junk 3 (some s) = .ok (some t, [rnd v.x, rnd v.y, rnd v.z]) := h1
  rw [h1']
  rfl

theorem readVec2_sep (hf : f.Lawful good rnd) {junk : ν} {v : Vec2 ν} (hv : v.All good) {rest : Str} {l : List Str} {s : Str}
    (h : Sep rest (f.text v.x :: f.text v.y :: l) s) :
    ∃ t, readVec2 f junk (some s) = .ok (some t, v.map rnd) ∧ Sep rest l t := by
  obtain ⟨t, h1, h2⟩ := readCoefs_sep hf (junk := junk) [v.x, v.y] (by
    intro x hx; simp at hx; rcases hx with rfl | rfl
    · exact hv.1
    · exact hv.2) (l := l) h
  refine ⟨t, ?_, h2⟩
  unfold readVec2
  have h1' : readCoefs f junk 2 (some s) = .ok (some t, [rnd v.x, rnd v.y]) := h1
  rw [h1']
  rfl

theorem readRotation_sep (hf : f.Lawful good rnd) {junk : ν} {v : Quat ν} (hv : v.All good) {rest : Str} {l : List Str} {s : Str}
    (h : Sep rest (f.text v.x :: f.text v.y :: f.text v.z :: f.text v.w :: l) s) :
    ∃ t, readRotation f junk (some s) = .ok (some t, v.map rnd) ∧ Sep rest l t := by
  obtain ⟨t, h1, h2⟩ := readCoefs_sep hf (junk := junk) [v.x, v.y, v.z, v.w] (by
    intro x hx; simp at hx; rcases hx with rfl | rfl | rfl | rfl
    · exact hv.1
    · exact hv.2.1
    · exact hv.2.2.1
    · exact hv.2.2.2) (l := l) h
  refine ⟨t, ?_, h2⟩
  unfold readRotation
  have h1' : readCoefs f junk 4 (some s) = .ok (some t, [rnd v.x, rnd v.y, rnd v.z, rnd v.w]) := h1
  rw [h1']
  rfl

theorem toByte_val (b : Byte) : toByte (b.val : Int) = b := by
  apply Fin.ext
  show ((b.val : Int) % 256).toNat = b.val
  have := b.isLt
  omega

theorem cInt_byte (b : Byte) : Reads cInt (natStr b.val) (b.val : Int) := by
  have h := intEx_reads (-2147483648) 2147483647 (b.val : Int) (by omega) (by have := b.isLt; omega)
  have e : intStr (b.val : Int) = natStr b.val := by
    unfold intStr
    rw [if_neg (by omega)]
    simp
  rw [e] at h
  exact h

theorem readColor_sep {c : Color} {rest : Str} {l : List Str} {s : Str}
    (h : Sep rest (natStr c.r.val :: natStr c.g.val :: natStr c.b.val :: l) s) :
    ∃ t, readColor (some s) = (some t, c) ∧ Sep rest l t := by
  obtain ⟨t1, h1, k1⟩ := h.extract (cInt_byte c.r) 255
  obtain ⟨t2, h2, k2⟩ := k1.extract (cInt_byte c.g) 255
  obtain ⟨t3, h3, k3⟩ := k2.extract (cInt_byte c.b) 255
  refine ⟨t3, ?_, k3⟩
  unfold readColor
  simp only [h1, h2, h3, toByte_val]

theorem readFeature_sep (hf : f.Lawful good rnd) {junk : Nat → ν} {x : Feature ν} (hx : x.All good) {rest : Str} {l : List Str} {s : Str}
    (h : Sep rest ([f.text x.loc.x, f.text x.loc.y, f.text x.magnitude, f.text x.scale, f.text x.angle,
      natStr x.color.r.val, natStr x.color.g.val, natStr x.color.b.val] ++ l) s) :
    ∃ t, readFeature f junk (some s) = .ok (some t, x.map rnd) ∧ Sep rest l t := by
  obtain ⟨t1, h1, k1⟩ := readVec2_sep hf (junk := junk 0) hx.1 h
  obtain ⟨t2, h2, k2⟩ := k1.extract (hf.reads hx.2.1) (junk 1)
  obtain ⟨t3, h3, k3⟩ := k2.extract (hf.reads hx.2.2.1) (junk 2)
  obtain ⟨t4, h4, k4⟩ := k3.extract (hf.reads hx.2.2.2) (junk 3)
  obtain ⟨t5, h5, k5⟩ := readColor_sep k4
  refine ⟨t5, ?_, k5⟩
  unfold readFeature
  simp only [h1, h2, h3, h4, h5]
  rfl

/-! ### C92: text round trips -/

/-- What `operator<<` wrote for a colour, `operator>>` reads back, leaving the text that follows. -/
theorem C92_color (c : Color) {rest : Str} (hr : Ends rest) : readColor (some (colorText c ++ rest)) = (some rest, c) := by
  obtain ⟨t, h, k⟩ := readColor_sep (l := []) (color_words c rest hr)
  rw [h, k.done]

/-- The same for features: every field comes back rounded to the printed precision. -/
theorem C92_feature (hf : f.Lawful good rnd) (junk : Nat → ν) {x : Feature ν} (hx : x.All good) {rest : Str} (hr : Ends rest) :
    readFeature f junk (some (featureText f x ++ rest)) = .ok (some rest, x.map rnd) := by
  obtain ⟨t, h, k⟩ := readFeature_sep hf (junk := junk) hx (l := []) (feature_words hf x rest hr)
  rw [h, k.done]

theorem C92_landmark (hf : f.Lawful good rnd) (junk : Nat → ν) (junkObs : Nat) {m : Landmark ν} (hm : m.All good) {rest : Str} (hr : Ends rest) :
    readLandmark f junk junkObs (some (landmarkText f m ++ rest)) = .ok (some rest, m.map rnd) := by
  obtain ⟨t1, h1, k1⟩ := readVec3_sep hf (junk := junk 0) hm.1 (landmark_words hf m rest hr)
  obtain ⟨t2, h2, k2⟩ := k1.extract (hf.reads hm.2.1) (junk 1)
  obtain ⟨t3, h3, k3⟩ := readVec3_sep hf (junk := junk 2) hm.2.2 k2
  obtain ⟨t4, h4, k4⟩ := readColor_sep k3
  obtain ⟨t5, h5, k5⟩ := k4.extract (natEx_reads 4294967296 m.observations.val m.observations.isLt) junkObs
  unfold readLandmark
  simp only [h1, h2, h3, h4]
  have h5' : extract cUnsigned (some t4) junkObs = (some t5, m.observations.val) := h5
  simp only [h5', k5.done]
  have e : toUnsigned m.observations.val = m.observations := by
    apply Fin.ext
    show m.observations.val % 4294967296 = m.observations.val
    exact Nat.mod_eq_of_lt m.observations.isLt
  rw [e]
  rfl

theorem C92_rotation (hf : f.Lawful good rnd) (junk : ν) {q : Quat ν} (hq : q.All good) {rest : Str} (hr : Ends rest) :
    readRotation f junk (some (rotationText f q ++ rest)) = .ok (some rest, q.map rnd) := by
  obtain ⟨t, h, k⟩ := readRotation_sep hf (junk := junk) hq (rotation_words hf q rest hr)
  rw [h, k.done]

theorem C92_similarity (hf : f.Lawful good rnd) (junk : Nat → ν) {t : Similarity ν} (ht : t.All good) {rest : Str} (hr : Ends rest) :
    readSimilarity f junk (some (similarityText f t ++ rest)) = .ok (some rest, t.map rnd) := by
  obtain ⟨t1, h1, k1⟩ := (similarity_words hf t rest hr).extract (hf.reads ht.1) (junk 0)
  obtain ⟨t2, h2, k2⟩ := readRotation_sep hf (junk := junk 1) ht.2.1 k1
  obtain ⟨t3, h3, k3⟩ := readVec3_sep hf (junk := junk 2) ht.2.2 k2
  unfold readSimilarity
  simp only [h1, h2, h3, k3.done]
  rfl

/-- A feature whose location numbers print with different widths: Eigen pads, and the text still reads back,
    up to the precision of the format. -/
def demoFeature : Feature Int := ⟨⟨5, -1234⟩, 77, 12, -3, ⟨1, 255, 0⟩⟩

example : featureText tensFmt demoFeature = c!"    0 -1240 70 10 -10 1 255 0" ∧ demoFeature.All (fun n => -2147483640 ≤ n ∧ n ≤ 2147483647) ∧
    readFeature tensFmt (fun _ => 9) (some (featureText tensFmt demoFeature ++ c!" x")) =
      .ok (some (c!" x"), ⟨⟨0, -1240⟩, 70, 10, -10, ⟨1, 255, 0⟩⟩) := by
  refine ⟨by decide +kernel, by simp [Feature.All, Vec2.All, demoFeature], by decide +kernel⟩

end Vital.IO
