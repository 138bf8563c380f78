import Verif.Config.Parser
import Verif.Config.Write
/-
  Model of the reading half of vital/config/config_block_io.cxx and of write_config_file.

  POSIX, not Apple: the branches for _WIN32 and __APPLE__ are not modelled.  Logging is not modelled.
-/
namespace Vital.Parser
open Vital Vital.Config Vital.Sys

-- models: vital/config/config_block_io.cxx:79-99 (application_paths)
def applicationPaths (paths : List Str) (app version : Str) : List Str :=
  paths.flatMap (fun p =>
    let appPath := p ++ c!"/" ++ app
    if version ≠ [] then [appPath ++ c!"/" ++ version, appPath] else [appPath])

-- models: vital/config/config_block_io.cxx:230-234 (nonstandard_prefix)
def nonstandardPrefix (pre : Str) : Bool := pre != [] && pre != c!"/usr" && pre != c!"/usr/local"

-- models: vital/config/config_block_io.cxx:178-262 (config_file_paths)
def configFilePaths (w : World) (app version pre : Str) : List Str :=
  let home := match w.env (c!"HOME") with
    | some hm => if hm ≠ [] then [hm ++ c!"/.config"] else []
    | none => []
  let configPaths := getPath w (c!"XDG_CONFIG_HOME") ++ home ++ [c!"/etc/xdg", c!"/etc"]
  let dataPaths := [c!"/usr/local/share", c!"/usr/share"] ++ (if nonstandardPrefix pre then [pre ++ c!"/share"] else [])
  getPath w (c!"KWIVER_CONFIG_PATH") ++ applicationPaths configPaths app version ++
    (applicationPaths dataPaths app version).map (· ++ c!"/config") ++
    (if nonstandardPrefix pre then [pre ++ c!"/share/config", pre ++ c!"/config"] else [])

/-- `read_config_file( file_path, search_path )`: the state and the block returned; the first argument
    bounds the parser, `none` means that it was exhausted. -/
-- models: vital/config/config_block_io.cxx:265-288
def readFileF (n : Nat) (w : World) (h : Heap) (search : List Str) (path : Str) : Option (Heap × Except PExc Nat) :=
  if !fileExists w path then some (h, .error (.notFound path))
  else if fileIsDirectory w path then some (h, .error (.notFound path))
  else
    match parseF n w (fresh h search) path with
    | none => none
    | some (s, .error e) => some (s.heap, .error e)
    | some (s, .ok ()) => some (s.heap, .ok s.cfg)

/-- The loop over the directories; `result` is the block built so far. -/
-- models: vital/config/config_block_io.cxx:318-361
def searchLoopF (n : Nat) (w : World) (search : List Str) (name : Str) (merge : Bool) :
    List Str → Heap → Option Nat → Option (Heap × Except PExc Nat)
  | [], h, none => some (h, .error (.notFound name))
  | [], h, some r => some (h, .ok r)
  | d :: ds, h, result =>
    let path := d ++ c!"/" ++ name
    if !fileExists w path || fileIsDirectory w path then searchLoopF n w search name merge ds h result
    else
      match readFileF n w h search path with
      | none => none
      | some (h1, .error e) => some (h1, .error e)
      | some (h1, .ok c) =>
        if !merge then some (h1, .ok c)
        else
          match result with
          | none => searchLoopF n w search name merge ds h1 (some c)
          | some r =>
            match mergeConfig h1 c r with
            | (h2, .error e) => some (h2, .error (.config e))
            | (h2, .ok ()) => searchLoopF n w search name merge ds h2 (some c)

/-- `read_config_file( file_name, application_name, application_version, install_prefix, merge )`. -/
-- models: vital/config/config_block_io.cxx:291-362
def readConfigF (n : Nat) (w : World) (h : Heap) (name app version pre : Str) (merge : Bool) : Option (Heap × Except PExc Nat) :=
  let search := configFilePaths w app version pre
  if fileIsFullPath name then readFileF n w h search name
  else searchLoopF n w search name merge (search ++ [c!"."]) h none

/-- `read_config_file( path, search )` ends in `h'` with the block or exception `r`. -/
def ReadsFile (w : World) (h : Heap) (search : List Str) (path : Str) (h' : Heap) (r : Except PExc Nat) : Prop :=
  ∃ n, readFileF n w h search path = some (h', r)

/-- `read_config_file( name, app, version, prefix, merge )` ends in `h'` with the block or exception `r`. -/
def ReadsConfig (w : World) (h : Heap) (name app version pre : Str) (merge : Bool) (h' : Heap) (r : Except PExc Nat) : Prop :=
  ∃ n, readConfigF n w h name app version pre merge = some (h', r)

/-- What writing may meet: which names `std::ofstream` can open, and `MakeDirectory` (the file system after
    it, `none` when it fails). -/
structure Disk where
  canWrite : World → Str → Bool
  makeDir : World → Str → Option World

/-- The file system in which the file holds the text. -/
def World.store (w : World) (path text : Str) : World :=
  { w with
    content := fun p => if p = path then some text else w.content p
    readable := fun p => if p = path then true else w.readable p }

/-- `write_config_file`.  A stream that cannot be opened swallows the text without an error; opening
    truncates. -/
-- models: vital/config/config_block_io.cxx:365-400
def writeConfigFile (d : Disk) (w : World) (h : Heap) (b : Nat) (path : Str) : World × Except WriteExc Unit :=
  if fileIsDirectory w path then (w, .error .write)
  else
    let parent := getFilenamePath w (collapseFullPath w path)
    let made := if fileIsDirectory w parent then some w else d.makeDir w parent
    match made with
    | none => (w, .error .write)
    | some w1 =>
      match writeConfig h b with
      | (text, r) => (if d.canWrite w1 path then World.store w1 path text else w1, r)

end Vital.Parser
