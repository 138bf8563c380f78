import Verif.Basic.Str
/-
  What the modelled code can observe of the operating system.  The file system and the environment
  do not change during a call.  Windows, Cygwin, VMS and macOS branches are not modelled.
  Strings that go through `c_str()` are taken to contain no NUL character.
-/
namespace Vital.Sys
open Vital

/-- The outside world of a process. -/
structure World where
  /-- `getenv` -/
  env : Str → Option Str := fun _ => none
  /-- `getpwnam( user )->pw_dir` -/
  pwdir : Str → Option Str := fun _ => none
  /-- `getcwd`; `none` when it fails -/
  cwd : Option Str := some (c!"/")
  /-- `access( name, R_OK ) == 0` -/
  readable : Str → Bool := fun _ => false
  /-- `stat( name )` succeeds and reports a directory -/
  isDir : Str → Bool := fun _ => false
  /-- content of the file that `std::ifstream in( name )` opens; `none` when opening fails -/
  content : Str → Option Str := fun _ => none
  /-- `SystemTools::TranslationMap`, in iteration order -/
  translation : List (Str × Str) := []
  /-- `token_type_sysenv::lookup_entry` (queries about the machine) -/
  sysenv : Str → Option Str := fun _ => none

end Vital.Sys
