import Verif.Sys.PathsProps
/-
  The table of path translations of vital/kwiversys/SystemTools.cxx: AddTranslationPath, AddKeepPath, ClassInitialize (run before main);
  CheckTranslationPath and CollapseFullPath, which use it, are in Verif/Sys/Paths; properties C228 - C230.

  `rp` is realpath(): `none` when it fails.  The specification has a tree of directories, files and symbolic links and says what a path
  leads to; the limits on the number of links and on the length of paths only make `rp` fail more often.
-/
namespace Vital.Sys.Real
open Vital Vital.Sys

/-! ### The code -/

-- models: vital/kwiversys/SystemTools.cxx:319-349 (Realpath without an error message: a path that cannot be resolved stays)
def realpathS (rp : Str → Option Str) (p : Str) : Str := (rp p).getD p

-- models: vital/kwiversys/SystemTools.cxx:3463 (`path_b.find("..") == npos`, negated)
def hasDots : Str → Bool
  | '.' :: '.' :: _ => true
  | _ :: s => hasDots s
  | [] => false

-- models: vital/kwiversys/SystemTools.cxx:3467-3474 (end the path with a slash)
def endSlash (p : Str) : Str := if p ≠ [] ∧ p.getLast? ≠ some '/' then p ++ ['/'] else p

-- models: vital/kwiversys/SystemTools.cxx:3453-3483 (AddTranslationPath); std::map::insert keeps an entry that is there
def addTranslationPath (w : World) (a b : Str) : World :=
  let a := convertToUnixSlashes w a
  let b := convertToUnixSlashes w b
  if fileIsDirectory w a = true ∧ fileIsFullPath b = true ∧ hasDots b = false ∧ endSlash a ≠ endSlash b ∧
      OMap.contains w.translation (endSlash a) = false then
    { w with translation := OMap.insert w.translation (endSlash a) (endSlash b) }
  else w

-- models: vital/kwiversys/SystemTools.cxx:3485-3490 (AddKeepPath)
def addKeepPath (rp : Str → Option Str) (w : World) (dir : Str) : World :=
  addTranslationPath w (realpathS rp (collapseFullPath w dir)) dir

-- models: vital/kwiversys/SystemTools.cxx:5363-5383 (the loop over shorter and shorter logical paths); `best` is the pair cwd_changed, pwd_changed.
-- `none` when the loop needs more than `n` iterations
def logical (rp : Str → Option Str) (w : World) : Nat → Str → Str → Str × Str → Option (Str × Str)
  | 0, _, _, _ => none
  | n + 1, cwd, pwd, best =>
    if cwd = realpathS rp pwd ∧ cwd ≠ pwd then logical rp w n (getFilenamePath w cwd) (getFilenamePath w pwd) (cwd, pwd)
    else some best

-- models: vital/kwiversys/SystemTools.cxx:5330-5393 (ClassInitialize, Unix)
def classInitialize (rp : Str → Option Str) (n : Nat) (w : World) : Option World :=
  let w := addKeepPath rp { w with translation := [] } (c!"/tmp/")
  match w.env (c!"PWD"), w.cwd with
  | some pwd, some cwd => match logical rp w n cwd pwd ([], []) with
    | none => none
    | some (c, p) => some (if c ≠ [] ∧ p ≠ [] then addTranslationPath w c p else w)
  | _, _ => some w

/-! ### Specification: what a path leads to -/

inductive Node where
  | dir
  | file
  | link (target : Str)

/-- A tree: what there is at a place; a place is the list of the names that lead to it, the last one first. -/
abbrev Tree := List Str → Option Node

/-- The names of a path, cut at the slashes. -/
def names : Str → List Str
  | [] => [[]]
  | c :: s => if c = '/' then [] :: names s
    else match names s with
      | [] => [[c]]
      | x :: l => (c :: x) :: l

def IsDir (t : Tree) (s : List Str) : Prop := s = [] ∨ t s = some .dir

/-- A name of a directory entry. -/
def Entry (c : Str) : Prop := c ≠ [] ∧ c ≠ ['.'] ∧ c ≠ ['.', '.']

/-- Following these names from place `s` leads to place `r`. -/
inductive Walk (t : Tree) : List Str → List Str → List Str → Prop where
  | done {s : List Str} : Walk t s [] s
  | stay {s r : List Str} {c : Str} {l : List Str} : (c = [] ∨ c = ['.']) → IsDir t s → Walk t s l r → Walk t s (c :: l) r
  | up {s r : List Str} {l : List Str} : IsDir t s → Walk t s.tail l r → Walk t s (['.', '.'] :: l) r
  | enter {s r : List Str} {c : Str} {l : List Str} : Entry c → IsDir t s → (t (c :: s) = some .dir ∨ t (c :: s) = some .file) →
      Walk t (c :: s) l r → Walk t s (c :: l) r
  | absolute {s r : List Str} {c g : Str} {l : List Str} : Entry c → IsDir t s → t (c :: s) = some (.link ('/' :: g)) →
      Walk t [] (names g ++ l) r → Walk t s (c :: l) r
  | relative {s r : List Str} {c g : Str} {l : List Str} : Entry c → IsDir t s → t (c :: s) = some (.link g) → g.head? ≠ some '/' → g ≠ [] →
      Walk t s (names g ++ l) r → Walk t s (c :: l) r

/-- The absolute path `p` leads to the place `s`. -/
def LeadsTo (t : Tree) (p : Str) (s : List Str) : Prop := ∃ q, p = '/' :: q ∧ Walk t [] (names q) s

/-- The path of a place. -/
def pathOf (s : List Str) : Str := '/' :: slashJoin s.reverse

/-- realpath() tells the truth about absolute paths. -/
def Sound (t : Tree) (rp : Str → Option Str) : Prop := ∀ p d, p.head? = some '/' → rp p = some d → ∃ s, d = pathOf s ∧ LeadsTo t p s

/-- stat() tells the truth about directories. -/
def DirSound (t : Tree) (w : World) : Prop := ∀ p, p.head? = some '/' → w.isDir p = true → ∃ s, LeadsTo t p s ∧ IsDir t s

/-- Full property C228: the translations that the library sets up before main never change what a path leads to. -/
def C228_statement : Prop := ∀ (t : Tree) (rp : Str → Option Str) (n : Nat) (w w' : World), Sound t rp → DirSound t w →
  classInitialize rp n w = some w' → ∀ p s, p.head? = some '/' → (LeadsTo t (checkTranslationPath w' p) s ↔ LeadsTo t p s)

/-- Full property C229: with these translations a collapsed path is canonical and collapsing it again changes nothing. -/
def C229_statement : Prop := ∀ (t : Tree) (rp : Str → Option Str) (n : Nat) (w w' : World), Sound t rp → DirSound t w →
  classInitialize rp n w = some w' → ∀ p, Canonical p →
  Canonical (checkTranslationPath w' p) ∧ checkTranslationPath w' (checkTranslationPath w' p) = checkTranslationPath w' p

/-- Full property C230: setting up the translations ends. -/
def C230_statement : Prop := ∀ (t : Tree) (rp : Str → Option Str) (w : World), Sound t rp → ∃ n w', classInitialize rp n w = some w'

end Vital.Sys.Real
