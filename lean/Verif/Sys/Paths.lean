import Verif.Sys.World
/-
  Model of the path functions of vital/kwiversys/SystemTools.cxx (POSIX branch).
-/
namespace Vital.Sys
open Vital

/-! ### Small string helpers -/

/-- Text before the last occurrence of `c`, or `none` (position of `rfind`). -/
def beforeLast (c : Char) (s : Str) : Option Str :=
  match s.reverse.dropWhile (· != c) with
  | [] => none
  | _ :: r => some r.reverse

/-- Text after the last occurrence of `c` (the whole string when there is none). -/
def afterLast (c : Char) (s : Str) : Str := (s.reverse.takeWhile (· != c)).reverse

/-- Text before the first occurrence of `c` (the whole string when there is none). -/
def beforeFirst (c : Char) (s : Str) : Str := s.takeWhile (· != c)

/-- Text from the first occurrence of `c` on (empty when there is none). -/
def fromFirst (c : Char) (s : Str) : Str := s.dropWhile (· != c)

/-! ### ConvertToUnixSlashes -/

-- models: vital/kwiversys/SystemTools.cxx:2007-2030 (the loop: `\` not followed by a blank becomes `/`)
def slashify : Str → Str
  | [] => []
  | a :: r => (if a = '\\' ∧ r.head? ≠ some ' ' then '/' else a) :: slashify r

-- models: vital/kwiversys/SystemTools.cxx:2016-2027: adjacent slashes at positions >= 1 of the text as
-- it was before the conversion
def adjacentSlashes : Str → Bool
  | '/' :: '/' :: _ => true
  | _ :: r => adjacentSlashes r
  | [] => false

-- models: vital/kwiversys/SystemTools.cxx:802-833 (ReplaceString( path, "//", "/" ))
def replaceDouble : Str → Str
  | '/' :: '/' :: r => '/' :: replaceDouble r
  | a :: r => a :: replaceDouble r
  | [] => []

-- models: vital/kwiversys/SystemTools.cxx:2040-2062 (tilde expansion)
def expandTilde (w : World) (p : Str) : Str :=
  match p with
  | '~' :: r =>
    if r = [] ∨ r.head? = some '/' then
      match w.env (c!"HOME") with
      | some home => home ++ r
      | none => p
    else
      match w.pwdir (beforeFirst '/' r) with
      | some dir => dir ++ fromFirst '/' r
      | none => p
  | _ => p

-- models: vital/kwiversys/SystemTools.cxx:2063-2075 (drop one trailing slash, except in "/" and "c:/")
def dropTrailingSlash (p : Str) : Str :=
  if 1 < p.length ∧ p.getLast? = some '/' ∧ ¬ (p.length = 3 ∧ p[1]? = some ':') then p.dropLast else p

-- models: vital/kwiversys/SystemTools.cxx:1996-2076 (ConvertToUnixSlashes)
def convertToUnixSlashes (w : World) (p : Str) : Str :=
  let q := slashify p
  let q := if adjacentSlashes p.tail then replaceDouble q else q
  dropTrailingSlash (expandTilde w q)

/-! ### File name parts -/

-- models: vital/kwiversys/SystemTools.cxx:4141-4164 (GetFilenamePath)
def getFilenamePath (w : World) (f : Str) : Str :=
  match beforeLast '/' (convertToUnixSlashes w f) with
  | none => []
  | some ret =>
    if ret.length = 2 ∧ ret[1]? = some ':' then ret ++ ['/']
    else if ret = [] then ['/']
    else ret

-- models: vital/kwiversys/SystemTools.cxx:4170-4185 (GetFilenameName)
def getFilenameName (f : Str) : Str := afterLast '/' f

-- models: vital/kwiversys/SystemTools.cxx:4192-4204 (GetFilenameExtension): from the first dot
def getFilenameExtension (f : Str) : Str := fromFirst '.' (getFilenameName f)

-- models: vital/kwiversys/SystemTools.cxx:4210-4222 (GetFilenameLastExtension): from the last dot
def getFilenameLastExtension (f : Str) : Str :=
  match beforeLast '.' (getFilenameName f) with
  | none => []
  | some _ => '.' :: afterLast '.' (getFilenameName f)

-- models: vital/kwiversys/SystemTools.cxx:4228-4240 (GetFilenameWithoutExtension)
def getFilenameWithoutExtension (f : Str) : Str := beforeFirst '.' (getFilenameName f)

-- models: vital/kwiversys/SystemTools.cxx:4248-4261 (GetFilenameWithoutLastExtension)
def getFilenameWithoutLastExtension (f : Str) : Str :=
  match beforeLast '.' (getFilenameName f) with
  | none => getFilenameName f
  | some stem => stem

-- models: vital/kwiversys/SystemTools.cxx:4457-4509 (FileIsFullPath)
def fileIsFullPath (p : Str) : Bool := p.head? == some '~' || p.head? == some '/'

/-! ### Splitting and joining -/

def isSlash (c : Char) : Bool := c == '/' || c == '\\'

-- models: vital/kwiversys/SystemTools.cxx:3865-3949 (SplitPathRootComponent): root and remaining text
def splitRoot (p : Str) : Str × Str :=
  match p with
  | '/' :: '/' :: r => (c!"//", r)
  | '\\' :: '\\' :: r => (c!"//", r)
  | '/' :: r => (c!"/", r)
  | '\\' :: r => (c!"/", r)
  | a :: ':' :: '/' :: r => ([a, ':', '/'], r)
  | a :: ':' :: '\\' :: r => ([a, ':', '/'], r)
  | a :: ':' :: r => ([a, ':'], r)
  | '~' :: r => ('~' :: beforeFirst '/' r ++ ['/'], (fromFirst '/' r).drop 1)
  | r => ([], r)

/-- The components of `c .. last`: cut at every slash or backslash. -/
-- models: vital/kwiversys/SystemTools.cxx:4004-4015
def splitOn : Str → List Str
  | [] => [[]]
  | a :: r =>
    if isSlash a then [] :: splitOn r
    else match splitOn r with
      | [] => [[a]]
      | x :: xs => (a :: x) :: xs

-- models: vital/kwiversys/SystemTools.cxx:4004-4021 (no component when the remaining text is empty)
def restComponents (c : Str) : List Str := if c = [] then [] else splitOn c

/-- The home directory that a root `~` or `~user` (without the slash) stands for. -/
-- models: vital/kwiversys/SystemTools.cxx:3962-3997
def homeDir (w : World) (root : Str) : Str :=
  let h := if root.length = 1 then (w.env (c!"HOME")).getD []
           else (w.pwdir (root.drop 1)).getD []
  match h.getLast? with
  | some c => if isSlash c then h.dropLast else h
  | none => h

-- models: vital/kwiversys/SystemTools.cxx:3952-4022 (SplitPath with expand_home_dir).  The recursion
-- on the home directory is bounded by the first argument; `none` means that it was exhausted.
def splitPathF (w : World) : Nat → Str → Option (List Str)
  | 0, _ => none
  | n + 1, p =>
    let (root, c) := splitRoot p
    if root.head? = some '~' then
      match splitPathF w n (homeDir w root.dropLast) with
      | none => none
      | some comps => some (comps ++ restComponents c)
    else some (root :: restComponents c)

/-- `SplitPath( p, components, false )`. -/
def splitPathRaw (p : Str) : List Str := (splitRoot p).1 :: restComponents (splitRoot p).2

-- models: vital/kwiversys/SystemTools.cxx:4025-4068 (JoinPath)
def joinPath : List Str → Str
  | [] => []
  | [a] => a
  | a :: b :: r => a ++ b ++ (r.map (fun c => '/' :: c)).flatten

-- models: vital/kwiversys/SystemTools.cxx:3531-3554 (SystemToolsAppendComponents)
def appendComponents (out : List Str) : List Str → List Str
  | [] => out
  | i :: r =>
    if i = c!".." then
      appendComponents (if 1 < out.length then out.dropLast else out) r
    else if i ≠ [] ∧ i ≠ c!"." then appendComponents (out ++ [i]) r
    else appendComponents out r

-- models: vital/kwiversys/SystemTools.cxx:3499-3529 (CheckTranslationPath)
def checkTranslationPath (w : World) (p : Str) : Str :=
  if p.length < 2 then p
  else (w.translation.foldl
    (fun q e => if startsWith q e.1 then e.2 ++ q.drop e.1.length else q) (p ++ ['/'])).dropLast

-- models: vital/kwiversys/SystemTools.cxx:3556-3625 (CollapseFullPath( in_path, in_base )); `base` is
-- the given base or the working directory.  `none` when SplitPath does not return.
def collapseFullPathF (w : World) (fuel : Nat) (p : Str) (base : Option Str) : Option Str :=
  match splitPathF w fuel p with
  | none => none
  | some comps =>
    match comps with
    | [] => none
    | c0 :: _ =>
      let out : Option (List Str) :=
        if c0 = [] then
          match base with
          | none => some [[]]
          | some b =>
            match splitPathF w fuel b with
            | none => none
            | some [] => none
            | some (b0 :: bs) => some (appendComponents [b0] bs)
        else some []
      match out with
      | none => none
      | some out => some (checkTranslationPath w (joinPath (appendComponents out comps)))

/-- `CollapseFullPath( p )` for worlds whose home directories do not themselves begin with `~` (two
    levels of `SplitPath` suffice then, see `C77_split_terminates_partial`). -/
def collapseFullPath (w : World) (p : Str) : Str := (collapseFullPathF w 2 p w.cwd).getD []

/-! ### Search paths -/

/-- The segments that a `:` terminates (text after the last `:` is dropped). -/
-- models: vital/kwiversys/SystemTools.cxx:434-448 (the loop of GetPath)
def terminatedBy (acc : Str) : Str → List Str
  | [] => []
  | a :: r => if a = ':' then acc :: terminatedBy [] r else terminatedBy (acc ++ [a]) r

-- models: vital/kwiversys/SystemTools.cxx:427-448 (a separator is appended unless the text is empty
-- or ends in one)
def splitColon (v : Str) : List Str :=
  terminatedBy [] (if v ≠ [] ∧ v.getLast? ≠ some ':' then v ++ [':'] else v)

-- models: vital/kwiversys/SystemTools.cxx:409-454 (GetPath): the entries it appends
def getPath (w : World) (name : Str) : List Str :=
  match w.env name with
  | none => []
  | some v => (splitColon v).map (convertToUnixSlashes w)

/-- Append a slash unless there is one. -/
-- models: vital/kwiversys/SystemTools.cxx:2884-2895
def withSlash (p : Str) : Str := if p.getLast? = some '/' then p else p ++ ['/']

-- models: vital/kwiversys/SystemTools.cxx:1211-1232 (FileExists)
def fileExists (w : World) (p : Str) : Bool := p != [] && w.readable p

-- models: vital/kwiversys/SystemTools.cxx:3213-3258 (FileIsDirectory); the trailing slash handling is
-- left to the file system (`World.isDir` is asked with the name as given)
def fileIsDirectory (w : World) (p : Str) : Bool := p != [] && w.isDir p

-- models: vital/kwiversys/SystemTools.cxx:2864-2910 (FindName)
def findName (w : World) (name : Str) (userPaths : List Str) (noSystemPath : Bool) : Str :=
  let sys := if noSystemPath then [] else getPath w (c!"CMAKE_FILE_PATH") ++ getPath w (c!"PATH")
  match ((sys ++ userPaths).map (fun p => withSlash p ++ name)).find? (fileExists w) with
  | some p => p
  | none => []

-- models: vital/kwiversys/SystemTools.cxx:2917-2929 (FindFile)
def findFile (w : World) (name : Str) (userPaths : List Str) (noSystemPath : Bool) : Str :=
  let tryPath := findName w name userPaths noSystemPath
  if tryPath ≠ [] ∧ fileIsDirectory w tryPath = false then collapseFullPath w tryPath else []

end Vital.Sys
