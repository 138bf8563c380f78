import Verif.Sys.FindProgram
/-
  Functions of vital/kwiversys/SystemTools.cxx that look at files and programs: Split into lines, FileHasSignature, DetectFileType,
  LocateFileInDir, SplitProgramPath, FindProgramPath, FileTimeCompare; properties C235 - C241.
-/
namespace Vital.Sys.Loc
open Vital Vital.Sys

/-! ### Split into lines -/

-- models: vital/kwiversys/SystemTools.cxx:4118 (`data.find_first_of("\n", lpos)`): the text before the newline and the text after it
def cutNewline : Str → Option (Str × Str)
  | [] => none
  | c :: s => if c = '\n' then some ([], s) else (cutNewline s).map (fun p => (c :: p.1, p.2))

-- models: vital/kwiversys/SystemTools.cxx:4109-4137 (Split into lines); `n` bounds the number of rounds (the length of the text is enough)
def splitLines : Nat → Str → List Str → List Str × Bool
  | 0, _, lines => (lines, true)
  | n + 1, data, lines =>
    if data = [] then (lines, true)
    else match cutNewline data with
      | none => (lines ++ [data], false)
      | some (line, rest) =>
        if line.getLast? = some '\r' then splitLines n rest (lines ++ [line.dropLast])
        else splitLines n rest (lines ++ [line])

def split (data : Str) (lines : List Str) : List Str × Bool := splitLines (data.length + 1) data lines

/-! ### FileHasSignature, DetectFileType -/

-- models: vital/kwiversys/SystemTools.cxx:4274 (fseek with SEEK_SET): a negative position is refused and the position stays
def fseek (offset : Int) : Nat := if offset < 0 then 0 else offset.toNat

/-- strncmp(a, b, n) == 0 for a buffer of n bytes and a C string of n characters. -/
def sameStart : Str → Str → Bool
  | [], _ => true
  | _ :: _, [] => false
  | a :: s, b :: t => if a = b then (if a = Char.ofNat 0 then true else sameStart s t) else false

-- models: vital/kwiversys/SystemTools.cxx:4263-4291 (FileHasSignature); null pointers and files that cannot be opened are `none`
def fileHasSignature (content : Option Str) (signature : Option Str) (offset : Int) : Bool :=
  match signature, content with
  | some sig, some bytes =>
    let buffer := (bytes.drop (fseek offset)).take sig.length
    if buffer.length = sig.length then sameStart buffer sig else false
  | _, _ => false

inductive FileType where
  | unknown | binary | text
deriving DecidableEq

-- models: vital/kwiversys/SystemTools.cxx:4334-4339
def isText (c : Char) : Bool := (decide (0x20 ≤ c.toNat) && decide (c.toNat ≤ 0x7F)) || c == '\n' || c == '\r' || c == '\t'

-- models: vital/kwiversys/SystemTools.cxx:4293-4358 (DetectFileType); `dir` says whether the name is a directory.  Simplified: the quotient of the
-- two counts and percent_bin are rational numbers instead of doubles
def detectFileType (dir : Bool) (content : Option Str) (length : Nat) (percentBin : Rat) : FileType :=
  if percentBin < 0 then .unknown
  else if dir = true then .unknown
  else match content with
    | none => .unknown
    | some bytes =>
      let buffer := bytes.take length
      if buffer.length = 0 then .unknown
      else if ((buffer.length - (buffer.filter isText).length : Nat) : Rat) / (buffer.length : Rat) ≥ percentBin then .binary
      else .text

/-! ### LocateFileInDir -/

-- models: vital/kwiversys/SystemTools.cxx:3219-3240 (FileIsDirectory: a trailing slash is removed)
def strip (p : Str) : Str :=
  if 1 < p.length ∧ (p.getLast? = some '/' ∨ p.getLast? = some '\\') ∧ p.dropLast.getLast? ≠ some ':' then p.dropLast else p

-- models: vital/kwiversys/SystemTools.cxx:3213-3260 (FileIsDirectory)
def isDirT (w : World) (p : Str) : Bool := p != [] && w.isDir (strip p)

-- models: vital/kwiversys/SystemTools.cxx:4395-4404, 4433-4438 (need_slash)
def joinDir (dir name : Str) : Str :=
  dir ++ (if dir ≠ [] ∧ dir.getLast? ≠ some '/' ∧ dir.getLast? ≠ some '\\' then ['/'] else []) ++ name

-- models: vital/kwiversys/SystemTools.cxx:4377-4390 (`dir`, or its directory if it is none)
def realDir (w : World) (dir : Str) : Str := if isDirT w dir = true then dir else getFilenamePath w dir

-- models: vital/kwiversys/SystemTools.cxx:4360-4411, 4450 (LocateFileInDir with try_filename_dirs = 0): what is found
def locateIn (w : World) (filename dir : Str) : Option Str :=
  let base := getFilenameName filename
  if base = [] then none
  else if fileExists w (joinDir (realDir w dir) base) = true then some (joinDir (realDir w dir) base)
  else none

-- models: vital/kwiversys/SystemTools.cxx:4418-4447 (the loop of LocateFileInDir): `none` if it does not end within `n` rounds
def locateLoop (w : World) (base dir : Str) : Nat → Str → Str → Option (Option Str)
  | 0, _, _ => none
  | n + 1, fdir, bases =>
    let fdir := getFilenamePath w fdir
    let b := getFilenameName fdir
    if b = [] then some none
    else match locateIn w base (joinDir dir (b ++ '/' :: bases)) with
      | some f => some (some f)
      | none => locateLoop w base dir n fdir (b ++ '/' :: bases)

-- models: vital/kwiversys/SystemTools.cxx:4360-4453 (LocateFileInDir, names that are not null)
def locate (w : World) (n : Nat) (filename dir : Str) (tryDirs : Bool) : Option (Option Str) :=
  let base := getFilenameName filename
  if base = [] then some none
  else if fileExists w (joinDir (realDir w dir) base) = true then some (some (joinDir (realDir w dir) base))
  else if tryDirs = true then locateLoop w base (realDir w dir) n filename []
  else some none

/-! ### SplitProgramPath, FindProgramPath -/

-- models: vital/kwiversys/SystemTools.cxx:3354-3385 (SplitProgramPath): result, dir, file
def splitProgramPath (w : World) (inName : Str) : Bool × Str × Str :=
  let p := convertToUnixSlashes w inName
  let (dir, file) := if isDirT w p = true then (p, [])
    else match beforeLast '/' p with
      | some d => (d, afterLast '/' p)
      | none => ([], p)
  if dir ≠ [] ∧ isDirT w dir = false then (false, inName, file) else (true, dir, file)

-- models: vital/kwiversys/SystemTools.cxx:3347-3352 (GetProgramPath)
def getProgramPath (w : World) (inName : Str) : Str := (splitProgramPath w inName).2.1

/-- `s += p` for a C string: undefined if `p` is null. -/
def plus (s : Str) (p : Option Str) : Option Str := p.map (s ++ ·)

-- models: vital/kwiversys/SystemTools.cxx:3423-3444 (the message)
def failMessage (argv0 exeName : Option Str) (failures : List Str) : Str :=
  (c!"Can not find the command line program ") ++ exeName.getD [] ++ ['\n'] ++
  (match argv0 with
    | some a => (c!"  argv[0] = \"") ++ a ++ ['"', '\n']
    | none => []) ++ (c!"  Attempted paths:\n") ++ (failures.map (fun f => (c!"    \"") ++ f ++ ['"', '\n'])).flatten

-- models: vital/kwiversys/SystemTools.cxx:3387-3449 (FindProgramPath without CMAKE_INTDIR): the path or the message; `none` is undefined behaviour
def findProgramPath (w : World) (argv0 exeName buildDir installPrefix : Option Str) : Option (Except Str Str) :=
  let self0 := findProgram w (convertToUnixSlashes w (argv0.getD [])) [] false
  let self1 := if fileExists w self0 = true then some self0
    else match buildDir with
      | some b => plus (b ++ (c!"/bin/") ++ (c!".") ++ (c!"/")) exeName
      | none => some self0
  match self1 with
  | none => none
  | some self1 =>
    let self2 := match installPrefix with
      | some i => if fileExists w self1 = true then some (self1, [argv0.getD []])
        else (plus (i ++ (c!"/bin/")) exeName).map (fun s => (s, [argv0.getD [], self1]))
      | none => some (self1, [argv0.getD []])
    match self2 with
    | none => none
    | some (self2, failures) =>
      if fileExists w self2 = true then some (.ok self2)
      else some (.error (failMessage argv0 exeName (failures ++ [self2])))

/-! ### FileTimeCompare -/

-- models: vital/kwiversys/SystemTools.cxx:1396-1436 (FileTimeCompare with nanoseconds): stat gives seconds and nanoseconds; the result and *result
def fileTimeCompare (stat : Str → Option (Int × Nat)) (f1 f2 : Str) : Bool × Int :=
  match stat f1 with
  | none => (false, 0)
  | some (s1, n1) => match stat f2 with
    | none => (false, 0)
    | some (s2, n2) =>
      (true, if s1 < s2 then -1 else if s1 > s2 then 1 else if n1 < n2 then -1 else if n1 > n2 then 1 else 0)

/-! ### Specification -/

/-- A text, its lines and whether the last line is terminated: a line ends in "\n" or "\r\n". -/
inductive Lines : Str → List Str → Bool → Prop where
  | nil : Lines [] [] true
  | last {x : Str} : x ≠ [] → '\n' ∉ x → Lines x [x] false
  | unix {x s : Str} {l : List Str} {b : Bool} : '\n' ∉ x → x.getLast? ≠ some '\r' → Lines s l b → Lines (x ++ '\n' :: s) (x :: l) b
  | dos {x s : Str} {l : List Str} {b : Bool} : '\n' ∉ x → Lines s l b → Lines (x ++ '\r' :: '\n' :: s) (x :: l) b

/-- Full property C236: true exactly if the file has the signature at the offset. -/
def C236_statement : Prop := ∀ (content : Option Str) (sig : Str) (offset : Int), Char.ofNat 0 ∉ sig →
  (fileHasSignature content (some sig) offset = true ↔ ∃ a b, content = some (a ++ sig ++ b) ∧ (a.length : Int) = offset)

/-- A textual element as the header says: ASCII 0x20 to 0x7E, newline, carriage return, tab. -/
def Textual (c : Char) : Prop := (0x20 ≤ c.toNat ∧ c.toNat ≤ 0x7E) ∨ c = '\n' ∨ c = '\r' ∨ c = '\t'

/-- Counting characters. -/
inductive Count (P : Char → Prop) : Str → Nat → Prop where
  | nil : Count P [] 0
  | yes {c : Char} {s : Str} {n : Nat} : P c → Count P s n → Count P (c :: s) (n + 1)
  | no {c : Char} {s : Str} {n : Nat} : ¬ P c → Count P s n → Count P (c :: s) n

/-- Full property C237, as the header says: of the first `length` bytes more than the fraction percent_bin is not textual - binary, else text. -/
def C237_statement : Prop := ∀ (bytes : Str) (length : Nat) (p : Rat) (k : Nat), 0 ≤ p → bytes.take length ≠ [] →
  Count (fun c => ¬ Textual c) (bytes.take length) k →
  (detectFileType false (some bytes) length p = .binary ↔ (k : Rat) > p * ((bytes.take length).length : Rat)) ∧
  (detectFileType false (some bytes) length p = .text ↔ (k : Rat) ≤ p * ((bytes.take length).length : Rat))

/-- A name without special characters. -/
def Tame (x : Str) : Prop := x ≠ [] ∧ ∀ c ∈ x, c ≠ '/' ∧ c ≠ '\\' ∧ c ≠ ':' ∧ c ≠ '~'

/-- A path from the root or from the working directory. -/
def pathOf (abs : Bool) (ns : List Str) : Str := (if abs = true then ['/'] else []) ++ slashJoin ns

/-- The first of the paths that exists. -/
def FirstExisting (w : World) (cands : List Str) : Option Str → Prop
  | none => ∀ p ∈ cands, w.readable p = false
  | some f => ∃ a b, cands = a ++ f :: b ∧ w.readable f = true ∧ ∀ p ∈ a, w.readable p = false

/-- The ends of a list, the shortest first. -/
def ends : List Str → List (List Str)
  | [] => [[]]
  | x :: l => ends l ++ [x :: l]

/-- Full property C238, as the header says: for foo/bar/bill.txt look for bill.txt in dir, then in dir/bar, then in dir/foo/bar, and so on. -/
def C238_statement : Prop := ∀ (w : World) (abs : Bool) (ds cs : List Str) (base : Str), (∀ x ∈ ds, Tame x) → (∀ x ∈ cs, Tame x) → Tame base →
  w.isDir (pathOf true ds) = true →
  ∃ n r, locate w n (pathOf abs (cs ++ [base])) (pathOf true ds) true = some r ∧
    FirstExisting w ((ends cs).map (fun s => pathOf true (ds ++ s ++ [base]))) r

/-- Full property C239: the directory and the file name found for the path of a program lead back to it. -/
def C239_statement : Prop := ∀ (w : World) (abs : Bool) (ns : List Str) (x : Str), (∀ y ∈ ns, Tame y) → Tame x →
  w.isDir (pathOf abs (ns ++ [x])) = false → (ns ≠ [] → w.isDir (pathOf abs ns) = true) →
  splitProgramPath w (pathOf abs (ns ++ [x])) = (true, pathOf abs ns, x)

/-- The places where FindProgramPath looks. -/
def places (w : World) (argv0 exeName buildDir installPrefix : Option Str) : List Str :=
  findProgram w (convertToUnixSlashes w (argv0.getD [])) [] false ::
    ((buildDir.map (fun b => b ++ (c!"/bin/./") ++ exeName.getD [])).toList ++ (installPrefix.map (fun b => b ++ (c!"/bin/") ++ exeName.getD [])).toList)

/-- Full property C240: FindProgramPath gives the first place that exists and a message exactly if none does; whatever pointers are null. -/
def C240_statement : Prop := ∀ (w : World) (argv0 exeName buildDir installPrefix : Option Str),
  (∃ p, findProgramPath w argv0 exeName buildDir installPrefix = some (.ok p) ∧
    ∃ a b, places w argv0 exeName buildDir installPrefix = a ++ p :: b ∧ fileExists w p = true ∧ ∀ q ∈ a, fileExists w q = false) ∨
  (∃ m, findProgramPath w argv0 exeName buildDir installPrefix = some (.error m) ∧
    ∀ q ∈ places w argv0 exeName buildDir installPrefix, fileExists w q = false)

end Vital.Sys.Loc
