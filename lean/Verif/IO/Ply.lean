import Verif.IO.Text
import Verif.Config.ReadFile
/-
  Model of vital/io/landmark_map_io.cxx: PLY files of landmarks.

  A landmark map is its content in iteration order (ascending ids), without null landmarks.
-/
namespace Vital.IO
open Vital Vital.Stream Vital.Sys

variable {ν : Type}

/-- The numbers 0 and 1. -/
structure Consts (ν : Type) where
  zero : ν
  one : ν

/-! ### Writing files -/

/-- The part common to the writers: a directory cannot be written, missing directories are made, a stream that
    cannot be opened swallows the text, opening truncates. -/
-- models: vital/io/landmark_map_io.cxx:63-87, 121; vital/io/track_set_io.cxx:121-143, 152; vital/io/camera_io.cxx:98-121
def writeText (d : Parser.Disk) (w : World) (path text : Str) : World × Except Exc Unit :=
  if fileIsDirectory w path then (w, .error .fileWrite)
  else
    let parent := getFilenamePath w (collapseFullPath w path)
    match (if fileIsDirectory w parent then some w else d.makeDir w parent) with
    | none => (w, .error .fileWrite)
    | some w1 => (if d.canWrite w1 path then Parser.World.store w1 path text else w1, .ok ())

/-! ### Writing PLY -/

-- models: vital/io/landmark_map_io.cxx:88-104 (header lines)
def plyHeader (n : Nat) : List Str :=
  [c!"ply", c!"format ascii 1.0", c!"comment written by VITAL", c!"element vertex " ++ natStr n,
   c!"property float x", c!"property float y", c!"property float z",
   c!"property float nx", c!"property float ny", c!"property float nz",
   c!"property uchar red", c!"property uchar green", c!"property uchar blue",
   c!"property uint track_id", c!"property uint observations", c!"end_header"]

-- models: vital/io/landmark_map_io.cxx:108-120 (one landmark)
def plyLine (f : NumFmt ν) (e : Int × Landmark ν) : Str :=
  f.text e.2.loc.x ++ c!" " ++ f.text e.2.loc.y ++ c!" " ++ f.text e.2.loc.z ++ c!" " ++
  f.text e.2.normal.x ++ c!" " ++ f.text e.2.normal.y ++ c!" " ++ f.text e.2.normal.z ++ c!" " ++
  natStr e.2.color.r.val ++ c!" " ++ natStr e.2.color.g.val ++ c!" " ++ natStr e.2.color.b.val ++ c!" " ++
  intStr e.1 ++ c!" " ++ natStr e.2.observations.val

-- models: vital/io/landmark_map_io.cxx:86-121
def plyText (f : NumFmt ν) (m : List (Int × Landmark ν)) : Str :=
  ((plyHeader m.length ++ m.map (plyLine f)).map (· ++ c!"\n")).flatten

-- models: vital/io/landmark_map_io.cxx:53-122 (write_ply_file); `none` is a null pointer
def writePlyFile (f : NumFmt ν) (d : Parser.Disk) (w : World) (m : Option (List (Int × Landmark ν))) (path : Str) : World × Except Exc Unit :=
  match m with
  | none => (w, .error .fileWrite)
  | some l => if l.length = 0 then (w, .error .fileWrite) else writeText d w path (plyText f l)

/-! ### Reading PLY -/

-- models: vital/io/landmark_map_io.cxx:127-136 (vertex_property_t)
inductive VProp
  | invalid | vx | vy | vz | nx | ny | nz | cr | cg | cb | index | observations
  deriving DecidableEq

-- models: vital/io/landmark_map_io.cxx:170-192 (prop_map)
def propTable : List (Str × VProp) :=
  [(c!"x", .vx), (c!"y", .vy), (c!"z", .vz), (c!"nx", .nx), (c!"ny", .ny), (c!"nz", .nz),
   (c!"red", .cr), (c!"green", .cg), (c!"blue", .cb), (c!"track_id", .index), (c!"observations", .observations),
   (c!"vsfm_cnx", .nx), (c!"vsfm_cny", .ny), (c!"vsfm_cnz", .nz), (c!"diffuse_red", .cr), (c!"diffuse_green", .cg),
   (c!"diffuse_blue", .cb), (c!"number_of_camera_sees_this_point", .observations)]

-- models: vital/io/landmark_map_io.cxx:234-243
def propOf (name : Str) : VProp := ((propTable.find? (fun e => e.1 == name.map toLower)).map (·.2)).getD .invalid

/-- The locals of one vertex line. -/
-- models: vital/io/landmark_map_io.cxx:252-257
structure Vert (ν : Type) where
  loc : Vec3 ν
  normal : Vec3 ν
  color : Color
  id : Int
  observations : Nat

-- models: vital/io/landmark_map_io.cxx:258-302 (one field; the token is not empty, so `cvalue` is always assigned)
def putField (f : NumFmt ν) (v : Vert ν) (p : VProp) (tok : Str) : Vert ν :=
  match p with
  | .vx => { v with loc := { v.loc with x := (extract f.parse (some tok) v.loc.x).2 } }
  | .vy => { v with loc := { v.loc with y := (extract f.parse (some tok) v.loc.y).2 } }
  | .vz => { v with loc := { v.loc with z := (extract f.parse (some tok) v.loc.z).2 } }
  | .nx => { v with normal := { v.normal with x := (extract f.parse (some tok) v.normal.x).2 } }
  | .ny => { v with normal := { v.normal with y := (extract f.parse (some tok) v.normal.y).2 } }
  | .nz => { v with normal := { v.normal with z := (extract f.parse (some tok) v.normal.z).2 } }
  | .cr => { v with color := { v.color with r := toByte (extract cInt (some tok) 0).2 } }
  | .cg => { v with color := { v.color with g := toByte (extract cInt (some tok) 0).2 } }
  | .cb => { v with color := { v.color with b := toByte (extract cInt (some tok) 0).2 } }
  | .index => { v with id := (extract cInt64 (some tok) v.id).2 }
  | .observations => { v with observations := (extract cUnsigned (some tok) v.observations).2 }
  | .invalid => v

def putFields (f : NumFmt ν) : List VProp → List Str → Vert ν → Vert ν
  | p :: ps, t :: ts, v => putFields f ps ts (putField f v p t)
  | _, _, v => v

/-- The landmark of a vertex line. -/
-- models: vital/io/landmark_map_io.cxx:252-309
def vertexOf (f : NumFmt ν) (k : Consts ν) (props : List VProp) (count : Nat) (tokens : List Str) : Int × Landmark ν :=
  let v := putFields f props tokens
    ⟨⟨k.zero, k.zero, k.zero⟩, ⟨k.zero, k.zero, k.zero⟩, {}, (count : Int), 0⟩
  (v.id, ⟨v.loc, k.one, v.normal, v.color, toUnsigned v.observations⟩)

/-- `landmarks[id] = lm` on a `std::map`. -/
def mapPut {α : Type} : List (Int × α) → Int → α → List (Int × α)
  | [], i, a => [(i, a)]
  | e :: l, i, a => if e.1 < i then e :: mapPut l i a else if e.1 = i then (i, a) :: l else (i, a) :: e :: l

/-- What the header lines establish. -/
-- models: vital/io/landmark_map_io.cxx:195-199 (locals)
structure Hdr where
  parsingVerts : Bool := false
  props : List VProp := []
  numVerts : Nat := 0

-- models: vital/io/landmark_map_io.cxx:217-228
def elementLine (h : Hdr) (tokens : List Str) : Hdr :=
  if tokens.length = 3 ∧ tokens[0]? = some (c!"element") ∧ tokens[1]? = some (c!"vertex") then
    { h with numVerts := (extract cUnsigned (some (tokens[2]?.getD [])) h.numVerts).2, parsingVerts := true }
  else if tokens[0]? = some (c!"element") then { h with parsingVerts := false }
  else h

-- models: vital/io/landmark_map_io.cxx:230-245
def propertyLine (h : Hdr) (tokens : List Str) : Hdr :=
  if h.parsingVerts = true ∧ tokens.length = 3 ∧ tokens[0]? = some (c!"property") then
    { h with props := h.props ++ [propOf (tokens[2]?.getD [])] }
  else h

-- models: vital/io/landmark_map_io.cxx:217-247 (one header line other than end_header)
def headerLine (h : Hdr) (tokens : List Str) : Hdr := propertyLine (elementLine h tokens) tokens

-- models: vital/io/landmark_map_io.cxx:160, 194-199 (locals)
structure PlySt (ν : Type) where
  parsedHeader : Bool := false
  hdr : Hdr := {}
  vertCount : Nat := 0
  landmarks : List (Int × Landmark ν) := []

/-- The loop over the lines of the file. -/
-- models: vital/io/landmark_map_io.cxx:200-316
def plyLoop (f : NumFmt ν) (k : Consts ν) : List Str → PlySt ν → PlySt ν
  | [], st => st
  | line :: rest, st =>
    if words line = [] then plyLoop f k rest st
    else if st.parsedHeader = false then
      if line = c!"end_header" then plyLoop f k rest { st with parsedHeader := true }
      else plyLoop f k rest { st with hdr := headerLine st.hdr (words line) }
    else
      let e := vertexOf f k st.hdr.props st.vertCount (words line)
      let st1 := { st with vertCount := (st.vertCount + 1) % 4294967296, landmarks := mapPut st.landmarks e.1 e.2 }
      if st1.hdr.numVerts < st1.vertCount then st1 else plyLoop f k rest st1

-- models: vital/io/landmark_map_io.cxx:194-320 (content of the file)
def plyRead (f : NumFmt ν) (k : Consts ν) (text : Str) : List (Int × Landmark ν) :=
  (plyLoop f k (Parser.fileLines text) {}).landmarks

-- models: vital/io/landmark_map_io.cxx:151-321 (read_ply_file)
def readPlyFile (f : NumFmt ν) (k : Consts ν) (w : World) (path : Str) : Except Exc (List (Int × Landmark ν)) :=
  if fileExists w path = false then .error .fileNotFound
  else
    match w.content path with
    | none => .error .fileNotRead
    | some text => .ok (plyRead f k text)

end Vital.IO
