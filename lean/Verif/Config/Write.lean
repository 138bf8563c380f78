import Verif.Config.Model
import Verif.Basic.Decimal
import Verif.Util.Tokenize
/-
  Model of the writing half of vital/config/config_block_io.cxx.

  A stream is modelled by the text written to it; writing never fails.
-/
namespace Vital.Config
open Vital

/-- The loop over the words of one paragraph: words left, line buffer, spaces, text written. -/
-- models: vital/config/config_block_io.cxx:138-170
def wordLoop : List Str → Str → Nat → Str → Str
  | [], buf, _, out => if 0 < buf.length then out ++ buf ++ c!"\n" else out
  | w :: ws, buf, spaces, out =>
    if w.length = 0 then wordLoop ws buf (spaces + 1) out
    else if 80 < buf.length + spaces + w.length then
      wordLoop ws (c!"#" ++ (List.replicate 1 ' ' ++ w)) 1 (out ++ buf ++ c!"\n")
    else wordLoop ws (buf ++ (List.replicate spaces ' ' ++ w)) 1 out

-- models: vital/config/config_block_io.cxx:104-177 (write_cb_comment)
def writeComment (comment : Str) : Str :=
  (Tokenize.tokenize comment [] (c!"\n") false).foldl
    (fun out blk => wordLoop (Tokenize.tokenize blk [] (c!" ") false) (c!"#") 1 out) (c!"\n")

/-- Ascending order; keys that compare equal are equal, so the result of `std::sort` does not depend on the
    algorithm (the model inserts). -/
-- models: vital/config/config_block_io.cxx:418 (std::sort)
def insertKey (k : Str) : List Str → List Str
  | [] => [k]
  | a :: l => if strLt a k then a :: insertKey k l else k :: a :: l

def sortKeys (l : List Str) : List Str := l.foldr insertKey []

inductive WriteExc where
  /-- config_file_write_exception -/
  | write
  | config (e : Exc)
  deriving DecidableEq, Repr

-- models: vital/config/config_block_io.cxx:447-453
def locationComment : Option Loc → Str
  | none => []
  | some (file, line) => c!"# defined - " ++ file ++ c!":" ++ intStr line ++ c!"\n"

/-- The loop over the sorted keys: text written and how it ends.  When reading a value throws, whether
    `key = ` has been written is unspecified in C++; the model has written nothing of the line. -/
-- models: vital/config/config_block_io.cxx:421-454
def writeLoop (h : Heap) (b : Nat) : List Str → Bool → Str × Except WriteExc Unit
  | [], _ => ([], .ok ())
  | key :: keys, prevDescr =>
    match getDescription h b key with
    | .error e => ([], .error (.config e))
    | .ok descr =>
      let pre := if descr ≠ [] then writeComment descr else if prevDescr then c!"\n" else []
      match getValue h b key with
      | .error e => (pre, .error (.config e))
      | .ok v =>
        match getLocation h b key with
        | .error e => (pre ++ key ++ c!" = " ++ v ++ c!"\n", .error (.config e))
        | .ok loc =>
          match writeLoop h b keys (decide (descr ≠ [])) with
          | (t, r) => (pre ++ key ++ c!" = " ++ v ++ c!"\n" ++ locationComment loc ++ t, r)

-- models: vital/config/config_block_io.cxx:404-456 (write_config)
def writeConfig (h : Heap) (b : Nat) : Str × Except WriteExc Unit :=
  match availableValues h b with
  | .error e => ([], .error (.config e))
  | .ok keys => if keys.length = 0 then ([], .error .write) else writeLoop h b (sortKeys keys) false

end Vital.Config
