import Verif.IO.TrackFile
/-
  Model of the camera text form (vital/types/camera.cxx, camera_intrinsics.cxx) and of vital/io/camera_io.cxx and
  vital/io/camera_map_io.cxx: KRTD files.  Properties C56, C95.

  A camera is what its accessors return: the calibration matrix, the rotation matrix, the translation and the distortion
  coefficients.  The conversions of the matrices to the stored parameters and back are the subject of Verif.Geo.
-/
namespace Vital.IO
open Vital Vital.Stream Vital.Sys

variable {ν : Type} {f : NumFmt ν} {good : ν → Prop} {rnd : ν → ν}

/-- Three rows. -/
abbrev Mat3 (ν : Type) := Vec3 (Vec3 ν)

structure Camera (ν : Type) where
  k : Mat3 ν
  r : Mat3 ν
  t : Vec3 ν
  dist : List ν
  deriving DecidableEq

structure Intrinsics (ν : Type) where
  k : Mat3 ν
  dist : List ν
  deriving DecidableEq

/-! ### Output -/

def rowText (f : NumFmt ν) (v : Vec3 ν) : List Str := [f.text v.x, f.text v.y, f.text v.z]

def matText (f : NumFmt ν) (m : Mat3 ν) : Str := eigenText [rowText f m.x, rowText f m.y, rowText f m.z]

-- models: vital/types/camera.cxx:86-105 (operator<<)
def cameraText (f : NumFmt ν) (z : ν) (c : Camera ν) : Str :=
  matText f c.k ++ c!"\n\n" ++ matText f c.r ++ c!"\n\n" ++ eigenText [rowText f c.t] ++ c!"\n\n" ++
    eigenText [(if c.dist.length = 0 then [z] else c.dist).map f.text] ++ c!"\n"

-- models: vital/types/camera_intrinsics.cxx:291-310 (operator<<)
def intrinsicsText (f : NumFmt ν) (z : ν) (c : Intrinsics ν) : Str :=
  matText f c.k ++ c!"\n\n" ++ ((if c.dist.isEmpty then [z] else c.dist).map (fun x => f.text x ++ c!" ")).flatten ++ c!"\n"

/-! ### Input -/

/-- `Eigen::Dynamic`: the number of rows that a matrix of dynamic size has as a template argument. -/
def dynamic : Int := -1

/-- Iterations of the two loops with these template arguments. -/
-- models: vital/io/eigen_io.h:62-64 (`for ( int i = 0; i < M; ++i ) for ( int j = 0; j < N; ++j )`)
def cells (m n : Int) : Nat := m.toNat * n.toNat

-- models: vital/io/eigen_io.h:57-74 for a 3x3 matrix
def readMat (f : NumFmt ν) (junk : ν) (s : IStr) : Except Exc (IStr × Mat3 ν) :=
  match readCoefs f junk (cells 3 3) s with
  | .ok (t, [a, b, c, d, e, g, h, i, j]) => .ok (t, ⟨⟨a, b, c⟩, ⟨d, e, g⟩, ⟨h, i, j⟩⟩)
  | .ok (_, _) => .error .invalidData
  | .error e => .error e

-- models: vital/io/eigen_io.h:57-74 for `Eigen::VectorXd` (`Matrix< double, Dynamic, 1 >`)
def readDyn (f : NumFmt ν) (junk : ν) (s : IStr) : Except Exc (IStr × List ν) := readCoefs f junk (cells dynamic 1) s

variable [DecidableEq ν]

-- models: vital/types/camera.cxx:146-153 and vital/types/camera_intrinsics.cxx:321-327
def dropPlaceholder (z : ν) (d : List ν) : List ν := if d = [z] then [] else d

-- models: vital/types/camera.cxx:139-159 (operator>>)
def readCamera (f : NumFmt ν) (z : ν) (junk : ν) (s : IStr) : Except Exc (IStr × Camera ν) :=
  match readMat f junk s with
  | .error e => .error e
  | .ok (s1, k) =>
    match readMat f junk s1 with
    | .error e => .error e
    | .ok (s2, r) =>
      match readVec3 f junk s2 with
      | .error e => .error e
      | .ok (s3, t) =>
        match readDyn f junk s3 with
        | .error e => .error e
        | .ok (s4, d) => .ok (s4, ⟨k, r, t, dropPlaceholder z d⟩)

-- models: vital/types/camera_intrinsics.cxx:314-331 (operator>>)
def readIntrinsics (f : NumFmt ν) (z : ν) (junk : ν) (s : IStr) : Except Exc (IStr × Intrinsics ν) :=
  match readMat f junk s with
  | .error e => .error e
  | .ok (s1, k) =>
    match readDyn f junk s1 with
    | .error e => .error e
    | .ok (s4, d) => .ok (s4, ⟨k, dropPlaceholder z d⟩)

-- models: vital/io/camera_io.cxx:90-122 (write_krtd_file)
def writeKrtdFile (f : NumFmt ν) (z : ν) (d : Parser.Disk) (w : World) (c : Camera ν) (path : Str) : World × Except Exc Unit :=
  writeText d w path (cameraText f z c)

-- models: vital/io/camera_io.cxx:47-75 (read_krtd_file)
def readKrtdFile (f : NumFmt ν) (z : ν) (junk : ν) (w : World) (path : Str) : Except Exc (Camera ν) :=
  if fileExists w path = false then .error .fileNotFound
  else if fileIsDirectory w path then .error .fileNotFound
  else
    match w.content path with
    | none => .error .fileNotRead
    | some text =>
      match readCamera f z junk (some text) with
      | .error e => .error e
      | .ok (_, c) => .ok c

-- models: vital/io/camera_io.cxx:80-86
def krtdPath (image dir : Str) : Str := dir ++ c!"/" ++ getFilenameWithoutLastExtension image ++ c!".krtd"

/-- The loop over the images.  A map entry is `none` when the pointer is null.  `lhsFirst`: `cameras[fid]` is evaluated
    before the call that may throw (before C++17 the order is unspecified). -/
-- models: vital/io/camera_map_io.cxx:57-67
def krtdLoop (rd : Str → Except Exc (Camera ν)) (lhsFirst : Bool) : List Str → Nat → List (Int × Option (Camera ν)) → Except Exc (List (Int × Option (Camera ν)))
  | [], _, m => .ok m
  | p :: ps, i, m =>
    match rd p with
    | .ok c => krtdLoop rd lhsFirst ps (i + 1) (mapPut m (i : Int) (some c))
    | .error e =>
      if e = .fileNotFound then krtdLoop rd lhsFirst ps (i + 1) (if lhsFirst then mapPut m (i : Int) none else m)
      else .error e

-- models: vital/io/camera_map_io.cxx:46-76 (read_krtd_files)
def readKrtdFiles (f : NumFmt ν) (z : ν) (junk : ν) (lhsFirst : Bool) (w : World) (images : List Str) (dir : Str) :
    Except Exc (List (Int × Option (Camera ν))) :=
  if fileExists w dir = false then .error .pathNotExists
  else
    match krtdLoop (fun p => readKrtdFile f z junk w (krtdPath p dir)) lhsFirst images 0 [] with
    | .error e => .error e
    | .ok m => if m.isEmpty then .error .invalidData else .ok m

/-! ### C56: round trip -/

def Mat3.map (g : ν → ν) (m : Mat3 ν) : Mat3 ν := ⟨Vec3.map g m.x, Vec3.map g m.y, Vec3.map g m.z⟩
def Mat3.All (p : ν → Prop) (m : Mat3 ν) : Prop := Vec3.All p m.x ∧ Vec3.All p m.y ∧ Vec3.All p m.z

/-- All numbers of the camera satisfy `p`. -/
def Camera.All (p : ν → Prop) (c : Camera ν) : Prop := Mat3.All p c.k ∧ Mat3.All p c.r ∧ c.t.All p ∧ ∀ x ∈ c.dist, p x

/-- The camera up to the printed precision. -/
def Camera.map (g : ν → ν) (c : Camera ν) : Camera ν := ⟨Mat3.map g c.k, Mat3.map g c.r, c.t.map g, c.dist.map g⟩

omit [DecidableEq ν] in
theorem mat_words (hf : f.Lawful good rnd) (m : Mat3 ν) :
    IsWords ([m.x.x, m.x.y, m.x.z, m.y.x, m.y.y, m.y.z, m.z.x, m.z.y, m.z.z].map f.text) (matText f m) :=
  eigenText_words [rowText f m.x, rowText f m.y, rowText f m.z] (by
    intro r hr
    simp at hr
    rcases hr with rfl | rfl | rfl <;>
    · refine ⟨by simp [rowText], ?_⟩
      intro w hw
      simp [rowText] at hw
      rcases hw with rfl | rfl | rfl <;> exact num_word hf _)

omit [DecidableEq ν] in
theorem vec_words (hf : f.Lawful good rnd) (ds : List ν) (hne : ds ≠ []) : IsWords (ds.map f.text) (eigenText [ds.map f.text]) := by
  have := eigenText_words [ds.map f.text] (by
    intro r hr
    simp at hr; subst hr
    refine ⟨by simpa using hne, ?_⟩
    intro w hw
    obtain ⟨x, _, rfl⟩ := List.mem_map.1 hw
    exact num_word hf x)
  simpa using this

omit [DecidableEq ν] in
theorem readMat_sep (hf : f.Lawful good rnd) {junk : ν} {m : Mat3 ν} (hm : Mat3.All good m) {rest : Str} {l : List Str} {s : Str}
    (h : Sep rest ([m.x.x, m.x.y, m.x.z, m.y.x, m.y.y, m.y.z, m.z.x, m.z.y, m.z.z].map f.text ++ l) s) :
    ∃ t, readMat f junk (some s) = .ok (some t, Mat3.map rnd m) ∧ Sep rest l t := by
  obtain ⟨t, h1, h2⟩ := readCoefs_sep hf (junk := junk) [m.x.x, m.x.y, m.x.z, m.y.x, m.y.y, m.y.z, m.z.x, m.z.y, m.z.z] (by
    intro x hx; simp at hx
    obtain ⟨⟨a1, a2, a3⟩, ⟨b1, b2, b3⟩, ⟨c1, c2, c3⟩⟩ := hm
    rcases hx with rfl | rfl | rfl | rfl | rfl | rfl | rfl | rfl | rfl <;> assumption) (l := l) h
  refine ⟨t, ?_, h2⟩
  unfold readMat
  have h1' : readCoefs f junk (cells 3 3) (some s) = .ok (some t, [m.x.x, m.x.y, m.x.z, m.y.x, m.y.y, m.y.z, m.z.x, m.z.y, m.z.z].map rnd) := h1
  rw [h1']
  rfl

omit [DecidableEq ν] in
theorem readDyn_nothing (junk : ν) (s : IStr) : readDyn f junk s = .ok (s, []) := rfl

/-- The full claim: reading the text of a camera returns the camera. -/
def C56_statement (f : NumFmt ν) (good : ν → Prop) (rnd : ν → ν) (z : ν) : Prop :=
  ∀ (c : Camera ν) (junk : ν), c.All good → ∃ s, readCamera f z junk (some (cameraText f z c)) = .ok (s, c.map rnd)

/-- A camera with distortion. -/
def demoCamera : Camera Int := ⟨⟨⟨100, 0, 32⟩, ⟨0, 100, 24⟩, ⟨0, 0, 1⟩⟩, ⟨⟨1, 0, 0⟩, ⟨0, 1, 0⟩, ⟨0, 0, 1⟩⟩, ⟨5, -6, 7⟩, [3, 4]⟩

/-- It is false: the coefficients are written, but not read. -/
theorem C56_refuted : ¬ C56_statement intFmt (fun n => -2147483648 ≤ n ∧ n ≤ 2147483647) id 0 := by
  intro h
  obtain ⟨s, h⟩ := h demoCamera 0 (by simp [Camera.All, Mat3.All, Vec3.All, demoCamera])
  have := congrArg (fun r => r.toOption.map (fun p => p.2.dist)) h
  revert this
  have e : (readCamera intFmt 0 0 (some (cameraText intFmt 0 demoCamera))).toOption.map (fun p => p.2.dist) = some [] := by decide +kernel
  rw [e]
  simp [Except.toOption, Camera.map, demoCamera]

/-- What is read back: both matrices and the translation up to the printed precision, and no distortion, whatever was
    written. -/
theorem C56_partial (hf : f.Lawful good rnd) (z : ν) {c : Camera ν} (hc : Mat3.All good c.k ∧ Mat3.All good c.r ∧ c.t.All good) (junk : ν)
    {rest : Str} :
    ∃ s, readCamera f z junk (some (cameraText f z c ++ rest)) = .ok (s, { c.map rnd with dist := [] }) := by
  have hsep : IsWords (([c.k.x.x, c.k.x.y, c.k.x.z, c.k.y.x, c.k.y.y, c.k.y.z, c.k.z.x, c.k.z.y, c.k.z.z].map f.text ++
      [c.r.x.x, c.r.x.y, c.r.x.z, c.r.y.x, c.r.y.y, c.r.y.z, c.r.z.x, c.r.z.y, c.r.z.z].map f.text) ++ [c.t.x, c.t.y, c.t.z].map f.text ++
      (if c.dist.length = 0 then [z] else c.dist).map f.text)
      (((matText f c.k ++ (c!"\n\n" ++ matText f c.r)) ++ (c!"\n\n" ++ eigenText [rowText f c.t])) ++
        (c!"\n\n" ++ eigenText [(if c.dist.length = 0 then [z] else c.dist).map f.text])) := by
    have hd : (if c.dist.length = 0 then [z] else c.dist) ≠ [] := by
      split
      · simp
      · rename_i h; intro e; rw [e] at h; exact h rfl
    refine (((mat_words hf c.k).sep (mat_words hf c.r) (by simp) (by decide) (by decide)).sep (vec_words hf [c.t.x, c.t.y, c.t.z] (by simp)) (by simp) (by decide) (by decide)).sep
      (vec_words hf _ hd) (by simpa using hd) (by decide) (by decide)
  have h0 := hsep (c!"\n" ++ rest) (ends_cons (by decide) _)
  have etext : cameraText f z c ++ rest = (((matText f c.k ++ (c!"\n\n" ++ matText f c.r)) ++ (c!"\n\n" ++ eigenText [rowText f c.t])) ++
        (c!"\n\n" ++ eigenText [(if c.dist.length = 0 then [z] else c.dist).map f.text])) ++ (c!"\n" ++ rest) := by
    unfold cameraText
    simp only [List.append_assoc]
  rw [← etext, List.append_assoc, List.append_assoc] at h0
  obtain ⟨t1, h1, k1⟩ := readMat_sep hf (junk := junk) hc.1 h0
  obtain ⟨t2, h2, k2⟩ := readMat_sep hf (junk := junk) hc.2.1 k1
  obtain ⟨t3, h3, k3⟩ := readVec3_sep hf (junk := junk) hc.2.2 k2
  refine ⟨some t3, ?_⟩
  unfold readCamera
  simp only [h1, h2, h3, readDyn_nothing]
  have : dropPlaceholder z ([] : List ν) = [] := by unfold dropPlaceholder; simp
  rw [this]
  rfl

/-- The claim holds for cameras without distortion, on files as well. -/
theorem C56_partial_files (hf : f.Lawful good rnd) (z : ν) {c : Camera ν} (hc : c.All good) (hd : c.dist = []) (junk : ν)
    {d : Parser.Disk} {w w1 : World} {path : Str} (hpath : path ≠ []) (hdir : w.isDir path = false) (hprep : Prepared d w path w1)
    (hcan : d.canWrite w1 path = true) (hw1 : w1.isDir path = false) :
    ∃ w', writeKrtdFile f z d w c path = (w', .ok ()) ∧ readKrtdFile f z junk w' path = .ok (c.map rnd) := by
  refine ⟨Parser.World.store w1 path (cameraText f z c), writeText_ok _ hdir hprep hcan, ?_⟩
  have hdr : fileIsDirectory (Parser.World.store w1 path (cameraText f z c)) path = false := by
    unfold fileIsDirectory Parser.World.store
    simp [hw1]
  unfold readKrtdFile
  rw [if_neg (by unfold fileExists Parser.World.store; simp [hpath]), hdr]
  unfold Parser.World.store
  simp only [if_true, Bool.false_eq_true, if_false]
  obtain ⟨s, hs⟩ := C56_partial (rest := []) hf z ⟨hc.1, hc.2.1, hc.2.2.1⟩ junk
  rw [List.append_nil] at hs
  simp only [hs]
  unfold Camera.map
  rw [hd]
  rfl

/-- The intrinsics alone lose their distortion too. -/
theorem C56_intrinsics_partial (hf : f.Lawful good rnd) (z : ν) {c : Intrinsics ν} (hc : Mat3.All good c.k) (junk : ν) {rest : Str} :
    ∃ s, readIntrinsics f z junk (some (intrinsicsText f z c ++ rest)) = .ok (s, ⟨Mat3.map rnd c.k, []⟩) := by
  have h0 := mat_words hf c.k (c!"\n\n" ++ (((if c.dist.isEmpty then [z] else c.dist).map (fun x => f.text x ++ c!" ")).flatten ++ (c!"\n" ++ rest)))
    (ends_cons (by decide) _)
  have etext : intrinsicsText f z c ++ rest = matText f c.k ++
      (c!"\n\n" ++ (((if c.dist.isEmpty then [z] else c.dist).map (fun x => f.text x ++ c!" ")).flatten ++ (c!"\n" ++ rest))) := by
    unfold intrinsicsText
    simp only [List.append_assoc]
  rw [← etext] at h0
  have h0' : Sep (c!"\n\n" ++ (((if c.dist.isEmpty then [z] else c.dist).map (fun x => f.text x ++ c!" ")).flatten ++ (c!"\n" ++ rest)))
    ([c.k.x.x, c.k.x.y, c.k.x.z, c.k.y.x, c.k.y.y, c.k.y.z, c.k.z.x, c.k.z.y, c.k.z.z].map f.text ++ []) (intrinsicsText f z c ++ rest) := by
    rw [List.append_nil]; exact h0
  obtain ⟨t1, h1, k1⟩ := readMat_sep hf (junk := junk) hc h0'
  refine ⟨some t1, ?_⟩
  unfold readIntrinsics
  simp only [h1, readDyn_nothing]
  have : dropPlaceholder z ([] : List ν) = [] := by unfold dropPlaceholder; simp
  rw [this]

omit [DecidableEq ν] in
/-- C91 for camera files. -/
theorem C91_krtd_throws (z : ν) (d : Parser.Disk) (w : World) (c : Camera ν) (path : Str) :
    ((writeKrtdFile f z d w c path).2 = .error .fileWrite ↔ fileIsDirectory w path = true ∨
        (fileIsDirectory w (getFilenamePath w (collapseFullPath w path)) = false ∧ d.makeDir w (getFilenamePath w (collapseFullPath w path)) = none)) ∧
    ((writeKrtdFile f z d w c path).2 ≠ .ok () → (writeKrtdFile f z d w c path).1 = w ∧ (writeKrtdFile f z d w c path).2 = .error .fileWrite) :=
  writeText_throws d w path _

theorem C91_krtd_read (z junk : ν) (w : World) (path : Str) :
    ((fileExists w path = false ∨ fileIsDirectory w path = true) → readKrtdFile f z junk w path = .error .fileNotFound) ∧
    (fileExists w path = true → fileIsDirectory w path = false → w.content path = none → readKrtdFile f z junk w path = .error .fileNotRead) ∧
    (∀ text, fileExists w path = true → fileIsDirectory w path = false → w.content path = some text →
      readKrtdFile f z junk w path = (readCamera f z junk (some text)).map (·.2)) := by
  unfold readKrtdFile
  cases h1 : fileExists w path <;> cases h3 : fileIsDirectory w path <;> cases h2 : w.content path <;> simp
  cases readCamera f z junk (some _) <;> rfl

/-! ### C95: cameras for images -/

/-- Number the elements. -/
def numbered {α : Type} : Nat → List α → List (Int × α)
  | _, [] => []
  | i, a :: l => ((i : Int), a) :: numbered (i + 1) l

/-- The cameras of the images whose camera file exists, with the image's position. -/
def camerasOf (rd : Str → Except Exc (Camera ν)) (images : List Str) : List (Int × Option (Camera ν)) :=
  (numbered 0 images).filterMap (fun e => (rd e.2).toOption.map (fun c => (e.1, some c)))

/-- Every camera file is missing or well-formed. -/
def NoneBroken (rd : Str → Except Exc (Camera ν)) (images : List Str) : Prop := ∀ p ∈ images, ∀ e, rd p = .error e → e = .fileNotFound

omit [DecidableEq ν] in
theorem krtdLoop_rhs (rd : Str → Except Exc (Camera ν)) (images : List Str) (hb : NoneBroken rd images) : ∀ (i : Nat) (m : List (Int × Option (Camera ν))),
    (∀ e ∈ m, e.1 < (i : Int)) →
    krtdLoop rd false images i m = .ok (m ++ (numbered i images).filterMap (fun e => (rd e.2).toOption.map (fun c => (e.1, some c)))) := by
  induction images with
  | nil => intro i m _; simp [krtdLoop, numbered]
  | cons p ps ih =>
    intro i m hm
    have hb' : NoneBroken rd ps := fun q hq => hb q (by simp [hq])
    unfold krtdLoop
    cases h : rd p with
    | ok c =>
      have e1 : mapPut m (i : Int) (some c) = m ++ [((i : Int), some c)] := mapPut_last m (i : Int) (some c) hm
      simp only [e1]
      rw [ih hb' (i + 1) _ (by
        intro e he
        rcases List.mem_append.1 he with he | he
        · have := hm e he; omega
        · simp at he; subst he; simp only; omega)]
      simp [numbered, h, Except.toOption]
    | error e =>
      have := hb p (by simp) e h
      subst this
      simp only [if_true, Bool.false_eq_true, if_false]
      rw [ih hb' (i + 1) m (by intro e he; have := hm e he; omega)]
      simp [numbered, h, Except.toOption]

omit [DecidableEq ν] in
theorem krtdLoop_lhs (rd : Str → Except Exc (Camera ν)) (images : List Str) (hb : NoneBroken rd images) : ∀ (i : Nat) (m : List (Int × Option (Camera ν))),
    (∀ e ∈ m, e.1 < (i : Int)) →
    krtdLoop rd true images i m = .ok (m ++ (numbered i images).map (fun e => (e.1, (rd e.2).toOption))) := by
  induction images with
  | nil => intro i m _; simp [krtdLoop, numbered]
  | cons p ps ih =>
    intro i m hm
    have hb' : NoneBroken rd ps := fun q hq => hb q (by simp [hq])
    have hnext : ∀ a : Option (Camera ν), ∀ e ∈ m ++ [((i : Int), a)], e.1 < ((i + 1 : Nat) : Int) := by
      intro a e he
      rcases List.mem_append.1 he with he | he
      · have := hm e he; omega
      · simp at he; subst he; simp only; omega
    unfold krtdLoop
    cases h : rd p with
    | ok c =>
      simp only [mapPut_last m (i : Int) (some c) hm]
      rw [ih hb' (i + 1) _ (hnext _)]
      simp [numbered, h, Except.toOption]
    | error e =>
      have := hb p (by simp) e h
      subst this
      simp only [if_true, mapPut_last m (i : Int) (none : Option (Camera ν)) hm]
      rw [ih hb' (i + 1) _ (hnext _)]
      simp [numbered, h, Except.toOption]

omit [DecidableEq ν] in
theorem krtdLoop_broken (rd : Str → Except Exc (Camera ν)) (lhs : Bool) (images : List Str) (hb : ¬ NoneBroken rd images) : ∀ (i : Nat) (m : List (Int × Option (Camera ν))),
    ∃ e, krtdLoop rd lhs images i m = .error e ∧ e ≠ .fileNotFound ∧ ∃ p ∈ images, rd p = .error e := by
  induction images with
  | nil => exact absurd (fun p hp => by simp at hp) hb
  | cons p ps ih =>
    intro i m
    unfold krtdLoop
    have hrest : (rd p).toOption.isSome ∨ rd p = .error .fileNotFound → ¬ NoneBroken rd ps := by
      intro hp hps
      apply hb
      intro q hq e he
      rcases List.mem_cons.1 hq with rfl | hq
      · rcases hp with hp | hp
        · rw [he] at hp; simp [Except.toOption] at hp
        · rw [he] at hp; injection hp
      · exact hps q hq e he
    cases h : rd p with
    | ok c =>
      obtain ⟨e, h1, h2, q, hq, h3⟩ := ih (hrest (by simp [h, Except.toOption])) (i + 1) (mapPut m (i : Int) (some c))
      exact ⟨e, h1, h2, q, by simp [hq], h3⟩
    | error e =>
      by_cases he : e = .fileNotFound
      · subst he
        obtain ⟨e, h1, h2, q, hq, h3⟩ := ih (hrest (.inr h)) (i + 1) (if lhs then mapPut m (i : Int) none else m)
        exact ⟨e, by simpa using h1, h2, q, by simp [hq], h3⟩
      · refine ⟨e, ?_, he, p, by simp, h⟩
        simp only [he, if_false]

theorem dropWhile_notin {c : Char} {t : Str} (h : c ∉ t) (r : Str) : (t ++ r).dropWhile (· != c) = r.dropWhile (· != c) ∧
    (t ++ r).takeWhile (· != c) = t ++ r.takeWhile (· != c) := by
  induction t with
  | nil => simp
  | cons a t ih =>
    have ha : (a != c) = true := by simp only [bne_iff_ne, ne_eq]; intro e; exact h (by simp [e])
    have := ih (fun hc => h (by simp [hc]))
    simp [ha, this.1, this.2]

/-- The camera file of an image: in the directory, with the name of the image and its last extension replaced. -/
theorem C95_path {a stem ext : Str} (dir : Str) (ha : a = [] ∨ ∃ b, a = b ++ ['/']) (hs : '/' ∉ stem) (he : '/' ∉ ext ∧ '.' ∉ ext) :
    krtdPath (a ++ stem ++ '.' :: ext) dir = dir ++ c!"/" ++ stem ++ c!".krtd" := by
  have h1 : getFilenameName (a ++ stem ++ '.' :: ext) = stem ++ '.' :: ext := by
    unfold getFilenameName afterLast
    have hr : '/' ∉ (stem ++ '.' :: ext).reverse := by simp [hs, he.1]
    rw [List.append_assoc, List.reverse_append, (dropWhile_notin hr _).2]
    have : a.reverse.takeWhile (· != '/') = [] := by
      rcases ha with rfl | ⟨b, rfl⟩ <;> simp
    rw [this]
    simp
  have h2 : getFilenameWithoutLastExtension (a ++ stem ++ '.' :: ext) = stem := by
    unfold getFilenameWithoutLastExtension
    rw [h1]
    have hr : '.' ∉ ext.reverse := by simp [he.2]
    have : beforeLast '.' (stem ++ '.' :: ext) = some stem := by
      unfold beforeLast
      have e : (stem ++ '.' :: ext).reverse = ext.reverse ++ '.' :: stem.reverse := by simp
      rw [e, (dropWhile_notin hr _).1]
      simp
    rw [this]
  unfold krtdPath
  rw [h2]

/-- An image without extension. -/
theorem C95_path_plain {a stem : Str} (dir : Str) (ha : a = [] ∨ ∃ b, a = b ++ ['/']) (hs : '/' ∉ stem ∧ '.' ∉ stem) :
    krtdPath (a ++ stem) dir = dir ++ c!"/" ++ stem ++ c!".krtd" := by
  have h1 : getFilenameName (a ++ stem) = stem := by
    unfold getFilenameName afterLast
    have hr : '/' ∉ stem.reverse := by simp [hs]
    rw [List.reverse_append, (dropWhile_notin hr _).2]
    have : a.reverse.takeWhile (· != '/') = [] := by
      rcases ha with rfl | ⟨b, rfl⟩ <;> simp
    rw [this]
    simp
  have h2 : getFilenameWithoutLastExtension (a ++ stem) = stem := by
    unfold getFilenameWithoutLastExtension
    rw [h1]
    have hr : '.' ∉ stem.reverse := by simp [hs]
    have : beforeLast '.' stem = none := by
      unfold beforeLast
      have := (dropWhile_notin hr []).1
      rw [List.append_nil] at this
      rw [this]
      rfl
    rw [this]
  unfold krtdPath
  rw [h2]

example : krtdPath (c!"x/y.z/img.tar.png") (c!"d") = c!"d/img.tar.krtd" ∧ krtdPath (c!"img") (c!"/d") = c!"/d/img.krtd" := by decide +kernel

/-- The full claim: however the compiler orders the assignment, the map holds exactly the cameras of the images whose
    camera file exists, and the call throws when there are none. -/
def C95_statement (f : NumFmt ν) (z junk : ν) : Prop :=
  ∀ (lhsFirst : Bool) (w : World) (images : List Str) (dir : Str), fileExists w dir = true →
    NoneBroken (fun p => readKrtdFile f z junk w (krtdPath p dir)) images →
    readKrtdFiles f z junk lhsFirst w images dir =
      (if camerasOf (fun p => readKrtdFile f z junk w (krtdPath p dir)) images = [] then .error .invalidData
       else .ok (camerasOf (fun p => readKrtdFile f z junk w (krtdPath p dir)) images))

/-- It holds when the right-hand side is evaluated first (C++17). -/
theorem C95_partial (f : NumFmt ν) (z junk : ν) (w : World) (images : List Str) (dir : Str) (hd : fileExists w dir = true)
    (hb : NoneBroken (fun p => readKrtdFile f z junk w (krtdPath p dir)) images) :
    readKrtdFiles f z junk false w images dir =
      (if camerasOf (fun p => readKrtdFile f z junk w (krtdPath p dir)) images = [] then .error .invalidData
       else .ok (camerasOf (fun p => readKrtdFile f z junk w (krtdPath p dir)) images)) := by
  unfold readKrtdFiles
  rw [if_neg (by simp [hd]), krtdLoop_rhs _ _ hb 0 [] (by simp)]
  simp only [List.nil_append]
  unfold camerasOf
  simp only [List.isEmpty_iff]

/-- When the left-hand side is evaluated first, every image gets an entry, a null one where the file is missing, and the call
    does not throw although no camera was found. -/
theorem C95_null_entries (f : NumFmt ν) (z junk : ν) (w : World) (images : List Str) (dir : Str) (hd : fileExists w dir = true) (hne : images ≠ [])
    (hb : NoneBroken (fun p => readKrtdFile f z junk w (krtdPath p dir)) images) :
    readKrtdFiles f z junk true w images dir =
      .ok ((numbered 0 images).map (fun e => (e.1, (readKrtdFile f z junk w (krtdPath e.2 dir)).toOption))) := by
  unfold readKrtdFiles
  rw [if_neg (by simp [hd]), krtdLoop_lhs _ _ hb 0 [] (by simp)]
  simp only [List.nil_append]
  rw [if_neg]
  cases images with
  | nil => exact absurd rfl hne
  | cons a l => simp [numbered]

/-- Whatever the order: a camera file that exists and does not read makes the call throw that error; a missing directory is
    reported. -/
theorem C95_broken (f : NumFmt ν) (z junk : ν) (lhs : Bool) (w : World) (images : List Str) (dir : Str) :
    (fileExists w dir = false → readKrtdFiles f z junk lhs w images dir = .error .pathNotExists) ∧
    (fileExists w dir = true → ¬ NoneBroken (fun p => readKrtdFile f z junk w (krtdPath p dir)) images →
      ∃ e, readKrtdFiles f z junk lhs w images dir = .error e ∧ e ≠ .fileNotFound ∧
        ∃ p ∈ images, readKrtdFile f z junk w (krtdPath p dir) = .error e) := by
  refine ⟨?_, ?_⟩
  · intro h; unfold readKrtdFiles; rw [if_pos h]
  · intro h hb
    obtain ⟨e, h1, h2, h3⟩ := krtdLoop_broken _ lhs images hb 0 []
    refine ⟨e, ?_, h2, h3⟩
    unfold readKrtdFiles
    rw [if_neg (by simp [h]), h1]

/-- A world with a directory and one camera file. -/
def demoCamWorld : World where
  readable := fun p => p == c!"d" || p == c!"d/b.krtd"
  isDir := fun p => p == c!"d"
  content := fun p => if p = c!"d/b.krtd" then some (cameraText intFmt 0 { demoCamera with dist := [] }) else none

theorem C95_refuted : ¬ C95_statement intFmt 0 0 := by
  intro h
  have := congrArg (fun r => r.toOption.map (fun l => l.map (fun e => (e.1, e.2.map (·.t))))) (h true demoCamWorld [c!"x/a.png"] (c!"d") (by decide +kernel) (by
    intro p hp e he
    simp at hp; subst hp
    have e2 : readKrtdFile intFmt 0 0 demoCamWorld (krtdPath (c!"x/a.png") (c!"d")) = .error .fileNotFound := rfl
    have he := e2.symm.trans he; injection he with he; exact he.symm))
  revert this
  decide +kernel

/-- Three images, one with a camera. -/
example : (readKrtdFiles intFmt 0 0 false demoCamWorld [c!"x/a.png", c!"/y/b.jpg", c!"c"] (c!"d")).toOption.map (fun l => l.map (fun e => (e.1, e.2.map (·.t)))) =
    some [(1, some ⟨5, -6, 7⟩)] := by decide +kernel

end Vital.IO
