import Verif.Config.Props
import Verif.CApi.Utils
/-
  The Python program vital/bindings/python/vital/bin/maptk_track_features.py; properties C223 - C227.

  The algorithms (loading, converting, tracking), the file with the tracks of a track set, the checks of the algorithms' configurations and
  the environment of Python (current directory, expansion of a leading ~) are parameters.  A file system maps paths to the contents of
  regular files; directories are a predicate.  A Python exception that is not caught ends the program with exit code 1.
  The algorithms' own entries in a configuration are a parameter (C214 - C216 are about them).
-/
namespace Vital.Py.Tool
open Vital Vital.Config Vital.CApi

/-! ### Python's paths -/

/-- `s.split( '/' )` -/
-- models: posixpath.normpath of Python 2.7 (split, called from vital/bindings/python/vital/bin/maptk_track_features.py:181)
def splitSlash : Str → List Str
  | [] => [[]]
  | c :: s => if c = '/' then [] :: splitSlash s
    else match splitSlash s with
      | [] => [[c]]
      | a :: l => (c :: a) :: l

/-- `'/'.join( l )` -/
-- models: posixpath.normpath of Python 2.7 (join)
def joinSlash : List Str → Str
  | [] => []
  | [a] => a
  | a :: b :: l => a ++ '/' :: joinSlash (b :: l)

/-- The loop of normpath; `acc` is new_comps, last one first. -/
-- models: posixpath.normpath of Python 2.7 (loop over the components)
def normLoop (init : Bool) : List Str → List Str → List Str
  | [], acc => acc.reverse
  | c :: l, acc =>
    if c = [] ∨ c = ['.'] then normLoop init l acc
    else if c ≠ ['.', '.'] ∨ (init = false ∧ acc = []) ∨ acc.head? = some ['.', '.'] then normLoop init l (c :: acc)
    else normLoop init l acc.tail

-- models: posixpath.normpath of Python 2.7 (initial slashes)
def slashes (p : Str) : Nat :=
  if startsWith p ['/'] then (if startsWith p ['/', '/'] ∧ ¬ startsWith p ['/', '/', '/'] then 2 else 1) else 0

-- models: posixpath.normpath of Python 2.7
def normpath (p : Str) : Str :=
  if p = [] then ['.']
  else
    let r := List.replicate (slashes p) '/' ++ joinSlash (normLoop (decide (slashes p ≠ 0)) (splitSlash p) [])
    if r = [] then ['.'] else r

-- models: posixpath.join of Python 2.7 (two arguments)
def pjoin (a b : Str) : Str :=
  if startsWith b ['/'] then b
  else if a = [] ∨ a.getLast? = some '/' then a ++ b
  else a ++ '/' :: b

/-- The environment of the program: current directory; what expanduser makes of a path that starts with ~. -/
-- models: what vital/bindings/python/vital/bin/maptk_track_features.py:181 reads of the environment
structure Env where
  cwd : Str
  tilde : Str → Str

-- models: vital/bindings/python/vital/bin/maptk_track_features.py:181 (abspath)
def abspath (e : Env) (p : Str) : Str :=
  let q := if p.head? = some '~' then e.tilde p else p
  normpath (if startsWith q ['/'] then q else pjoin e.cwd q)

/-! ### Configuration -/

-- models: vital/bindings/python/vital/bin/maptk_track_features.py:106-117 (the attributes without the algorithms)
structure Tool where
  imageList : Option Str
  maskList : Option Str
  invert : Bool
  multi : Bool
  output : Option Str
  deriving DecidableEq

-- models: vital/bindings/python/vital/bin/maptk_track_features.py:112-117
def Tool.init : Tool := ⟨none, none, false, false, none⟩

/-- `config.get_value( key, default )` -/
-- models: vital/bindings/python/vital/bin/maptk_track_features.py:183, 187, 195; vital/bindings/python/vital/config_block.py get_value (C211)
def getStr (h : Heap) (b : Nat) (key : Str) (dflt : Option Str) : Option Str :=
  match Config.getValue h b key with
  | .ok v => some (cstr v)
  | .error _ => dflt

/-- `config.get_value_bool( key, default )` -/
-- models: vital/bindings/python/vital/bin/maptk_track_features.py:191-194; vital/bindings/python/vital/config_block.py get_value_bool
def getBool (h : Heap) (b : Nat) (key : Str) (dflt : Bool) : Bool :=
  match getValueDef castBool h b key dflt with
  | .ok v => v
  | .error _ => dflt

/-- `if x: x = abspath( x )` -/
-- models: vital/bindings/python/vital/bin/maptk_track_features.py:185-186, 189-190, 197-198
def absIf (e : Env) : Option Str → Option Str
  | none => none
  | some p => if p = [] then some [] else some (abspath e p)

-- models: vital/bindings/python/vital/bin/maptk_track_features.py:171-198 (set_configuration), without the algorithms
def setConfig (e : Env) (t : Tool) (h : Heap) (b : Nat) : Tool where
  imageList := absIf e (getStr h b (c!"image_list_file") t.imageList)
  maskList := absIf e (getStr h b (c!"mask_list_file") t.maskList)
  invert := getBool h b (c!"invert_masks") t.invert
  multi := getBool h b (c!"expect_multichannel_masks") t.multi
  output := absIf e (getStr h b (c!"output_tracks_file") t.output)

/-- `str( b ).lower()` -/
-- models: vital/bindings/python/vital/bin/maptk_track_features.py:141, 147
def lowerBool (b : Bool) : Str := if b then c!"true" else c!"false"

/-- The set_value calls. -/
-- models: vital/bindings/python/vital/bin/maptk_track_features.py:125-167 (the calls of set_value, vital/bindings/python/vital/config_block.py)
def putAll (b : Nat) : List (Str × Str × Str) → Heap → Heap
  | [], h => h
  | (k, v, d) :: l, h => putAll b l (Config.setValue h b (cstr k) (cstr v) (cstr d)).1

/-- `x or ""` -/
-- models: vital/bindings/python/vital/bin/maptk_track_features.py:126, 130, 157
def orEmpty (x : Option Str) : Str := x.getD []

-- models: vital/bindings/python/vital/bin/maptk_track_features.py:119-169 (get_configuration); `descr` are the descriptions, `extra` what the
-- algorithms add
def getConfig (descr : Str → Str) (extra : List (Str × Str × Str)) (t : Tool) (h : Heap) : Heap × Nat :=
  (putAll h.length
    ([(c!"image_list_file", orEmpty t.imageList, descr (c!"image_list_file")),
      (c!"mask_list_file", orEmpty t.maskList, descr (c!"mask_list_file")),
      (c!"invert_masks", lowerBool t.invert, descr (c!"invert_masks")),
      (c!"expect_multichannel_masks", lowerBool t.multi, descr (c!"expect_multichannel_masks")),
      (c!"output_tracks_file", orEmpty t.output, descr (c!"output_tracks_file"))] ++ extra)
    (emptyConfig h (c!"track_features")).1, h.length)

/-! ### Tracking -/

-- models: simplified: files and directories that vital/bindings/python/vital/bin/maptk_track_features.py:200-273 looks at
structure FS where
  file : Str → Option Str
  dir : Str → Bool

/-- `none` = an exception is raised. -/
-- models: simplified: the algorithms and the operating system used at vital/bindings/python/vital/bin/maptk_track_features.py:247-273
structure World (Img TS : Type) where
  load : Str → Option Img
  convert : Img → Option Img
  track : TS → Nat → Img → Option Img → Option TS
  empty : TS
  /-- the text that write_track_file writes; it throws for a set without tracks -/
  text : TS → Option Str
  canMkdir : Str → Bool
  canOpen : Str → Bool

/-- `open( … ).readlines()`, without the line ends. -/
-- models: vital/bindings/python/vital/bin/maptk_track_features.py:231-232, 239-240
def readLines : Str → Str → List Str
  | acc, [] => if acc = [] then [] else [acc]
  | acc, c :: s => if c = '\n' then acc :: readLines [] s else readLines (acc ++ [c]) s

-- models: posixpath.dirname of Python 2.7
def dirname (p : Str) : Str :=
  let head := p.take (p.length - (p.reverse.takeWhile (· != '/')).length)
  if head ≠ [] ∧ head ≠ List.replicate head.length '/' then (head.reverse.dropWhile (· == '/')).reverse else head

-- models: vital/bindings/python/vital/bin/maptk_track_features.py:227-273 (the ways to return)
inductive Ret where
  /-- returns None -/
  | none
  /-- returns False -/
  | false
  | raised
  deriving DecidableEq

-- models: vital/bindings/python/vital/bin/maptk_track_features.py:254-255, 273
def FS.write (s : FS) (p c : Str) : FS := { s with file := fun q => if q = p then some c else s.file q }
-- models: vital/bindings/python/vital/bin/maptk_track_features.py:252
def FS.mkdir (s : FS) (p : Str) : FS := { s with dir := fun q => decide (q = p) || s.dir q }

section
variable {Img TS : Type} (w : World Img TS)

-- models: vital/bindings/python/vital/bin/maptk_track_features.py:260-262, 265-267
def picture (p : Str) : Option Img := (w.load p).bind w.convert

/-- One iteration. -/
-- models: vital/bindings/python/vital/bin/maptk_track_features.py:259-270; `masks` is mask_filepaths (None and an empty list are alike)
def frame (imgs masks : List Str) (i : Nat) (ts : TS) : Option TS :=
  match imgs[i]? with
  | none => none
  | some p => match picture w p with
    | none => none
    | some im =>
      if masks = [] then w.track ts i im none
      else match masks[i]? with
        | none => none
        | some q => match picture w q with
          | none => none
          | some mk => w.track ts i im (some mk)

/-- The loop; `n` iterations are left. -/
-- models: vital/bindings/python/vital/bin/maptk_track_features.py:259-270 (the loop)
def frames (imgs masks : List Str) : Nat → Nat → TS → Option TS
  | 0, _, ts => some ts
  | n + 1, i, ts => match frame w imgs masks i ts with
    | none => none
    | some ts => frames imgs masks n (i + 1) ts

/-- From the check of the output file on. -/
-- models: vital/bindings/python/vital/bin/maptk_track_features.py:247-273
def process (imgs masks : List Str) (out : Str) (s : FS) : FS × Ret :=
  if s.dir (dirname out) = false ∧ w.canMkdir (dirname out) = false then (s, .raised)
  else
    let s1 := if s.dir (dirname out) = false then s.mkdir (dirname out) else s
    if w.canOpen out = false then (s1, .raised)
    else
      let s2 := s1.write out []
      match frames w imgs masks imgs.length 0 w.empty with
      | none => (s2, .raised)
      | some ts => match w.text ts with
        | none => (s2, .raised)
        | some c => (s2.write out c, .none)

-- models: vital/bindings/python/vital/bin/maptk_track_features.py:227-273 (track_images)
def trackImages (t : Tool) (s : FS) : FS × Ret :=
  match s.file (orEmpty t.imageList) with
  | none => (s, .raised)
  | some c =>
    let imgs := (readLines [] c).map trim
    if orEmpty t.maskList = [] then process w imgs [] (orEmpty t.output) s
    else match s.file (orEmpty t.maskList) with
      | none => (s, .raised)
      | some d =>
        let masks := (readLines [] d).map trim
        if imgs.length ≠ masks.length then (s, .false)
        else process w imgs masks (orEmpty t.output) s

/-- The checks; `algos` = the algorithms' configurations are valid. -/
-- models: vital/bindings/python/vital/bin/maptk_track_features.py:200-225 (validate_configuration)
def validate (algos : Bool) (t : Tool) (s : FS) : Bool :=
  if orEmpty t.imageList = [] then false
  else if (s.file (orEmpty t.imageList)).isNone then false
  else if orEmpty t.output = [] then false
  else if orEmpty t.maskList ≠ [] ∧ (s.file (orEmpty t.maskList)).isNone then false
  else algos

/-- The program: files and exit code.  `config` is what the option -c gives (`some none` = reading it raises), `write` what the option -o
    does (`some none` = it raises). -/
-- models: vital/bindings/python/vital/bin/maptk_track_features.py:276-322 (cli_main)
def cliMain (e : Env) (algos : Bool) (config : Option (Option (Heap × Nat))) (write : Option (Option FS)) (s : FS) : FS × Nat :=
  match config with
  | some none => (s, 1)
  | _ =>
    let t := match config with
      | some (some (h, b)) => setConfig e Tool.init h b
      | _ => Tool.init
    match write with
    | some none => (s, 1)
    | some (some s') => (s', 0)
    | none =>
      if validate algos t s = false then (s, 1)
      else match trackImages w t s with
        | (s', .raised) => (s', 1)
        | (s', .none) => (s', 2)
        | (s', .false) => (s', 2)
end

/-! ### Specification -/

/-- The frames of a job: an image and maybe a mask. -/
structure Job where
  image : Str
  mask : Option Str

/-- Tracking these frames one after the other, the first one has the number `i`. -/
inductive Tracked {Img TS : Type} (w : World Img TS) : Nat → List Job → TS → TS → Prop where
  | done {i : Nat} {ts : TS} : Tracked w i [] ts ts
  | plain {i : Nat} {p : Str} {l : List Job} {a b c : TS} {r im : Img} : w.load p = some r → w.convert r = some im → w.track a i im none = some b →
      Tracked w (i + 1) l b c → Tracked w i (⟨p, none⟩ :: l) a c
  | masked {i : Nat} {p q : Str} {l : List Job} {a b c : TS} {r im r' mk : Img} : w.load p = some r → w.convert r = some im →
      w.load q = some r' → w.convert r' = some mk → w.track a i im (some mk) = some b → Tracked w (i + 1) l b c → Tracked w i (⟨p, some q⟩ :: l) a c

/-- The text of a file with these lines, the last one with or without a line end. -/
def FileOf (lines : List Str) (c : Str) : Prop :=
  (∀ l ∈ lines, '\n' ∉ l) ∧
  (c = lines.flatMap (fun l => l ++ ['\n']) ∨ ∃ ls x, lines = ls ++ [x] ∧ x ≠ [] ∧ c = ls.flatMap (fun l => l ++ ['\n']) ++ x)

/-- The files say that these jobs are to be done: paths with white space around them, line by line. -/
inductive Jobs (t : Tool) (s : FS) : List Job → Prop where
  | plain {lines : List Str} {p c : Str} : t.imageList = some p → s.file p = some c → FileOf lines c → (t.maskList = none ∨ t.maskList = some []) →
      Jobs t s (lines.map fun l => ⟨trim l, none⟩)
  | masked {pairs : List (Str × Str)} {p q c d : Str} : t.imageList = some p → s.file p = some c → FileOf (pairs.map (·.1)) c →
      t.maskList = some q → q ≠ [] → s.file q = some d → FileOf (pairs.map (·.2)) d → Jobs t s (pairs.map fun x => ⟨trim x.1, some (trim x.2)⟩)

/-- All frames are tracked and there are tracks to write. -/
def Success {Img TS : Type} (w : World Img TS) (t : Tool) (s : FS) (text : Str) : Prop :=
  ∃ jobs ts, Jobs t s jobs ∧ Tracked w 0 jobs w.empty ts ∧ w.text ts = some text

/-- The output file can be made. -/
def Writable {Img TS : Type} (w : World Img TS) (s : FS) (out : Str) : Prop := (s.dir (dirname out) = true ∨ w.canMkdir (dirname out) = true) ∧ w.canOpen out = true

/-- Full property C224: the exit code is 0 if and only if the tracks were found and written. -/
def C224_statement : Prop := ∀ (Img TS : Type) (w : World Img TS) (e : Env) (h : Heap) (b : Nat) (s : FS),
  ((cliMain w e true (some (some (h, b))) none s).2 = 0 ↔ validate true (setConfig e Tool.init h b) s = true ∧
    Writable w s (orEmpty (setConfig e Tool.init h b).output) ∧ ∃ text, Success w (setConfig e Tool.init h b) s text)

/-- Full property C225: when tracking fails, the output file stays as it was. -/
def C225_statement : Prop := ∀ (Img TS : Type) (w : World Img TS) (t : Tool) (s : FS),
  (trackImages w t s).2 ≠ .none → (trackImages w t s).1.file (orEmpty t.output) = s.file (orEmpty t.output)

/-- The settings of a tool: a path that is not set and an empty one are the same. -/
def settings (t : Tool) : Str × Str × Bool × Bool × Str := (orEmpty t.imageList, orEmpty t.maskList, t.invert, t.multi, orEmpty t.output)

/-- The tools there can be: configured any number of times. -/
inductive Made (e : Env) : Tool → Prop where
  | init : Made e Tool.init
  | set {t : Tool} (h : Heap) (b : Nat) : Made e t → Made e (setConfig e t h b)

def toolKeys : List Str := [c!"image_list_file", c!"mask_list_file", c!"invert_masks", c!"expect_multichannel_masks", c!"output_tracks_file"]

/-- The current directory is an absolute path, and there are no NUL characters. -/
def Env.Ok (e : Env) : Prop := startsWith e.cwd ['/'] = true ∧ nul ∉ e.cwd ∧ ∀ p, nul ∉ p → nul ∉ e.tilde p

/-- Full property C226: a tool that is given the configuration of another one has its settings. -/
def C226_statement : Prop := ∀ (e : Env) (descr : Str → Str) (extra : List (Str × Str × Str)) (h : Heap) (t t' : Tool),
  e.Ok → Made e t → (∀ x ∈ extra, cstr x.1 ∉ toolKeys) →
  settings (setConfig e t' (getConfig descr extra t h).1 (getConfig descr extra t h).2) = settings t

/-- Tracking with masks that are inverted first. -/
def World.invertMasks {Img TS : Type} (w : World Img TS) (inv : Img → Img) : World Img TS :=
  { w with track := fun ts i im mk => w.track ts i im (mk.map inv) }

/-- Full property C227: with invert_masks, tracking is done with the inverted masks. -/
def C227_statement : Prop := ∀ (Img TS : Type) (w : World Img TS) (inv : Img → Img) (t : Tool) (s : FS), t.invert = true →
  trackImages w t s = trackImages (w.invertMasks inv) { t with invert := false } s

end Vital.Py.Tool
