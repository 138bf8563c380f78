import Verif.CApi.Utils
import Verif.Config.Props
/-
  Model of the C interface to config blocks (vital/bindings/c/config_block.cxx) on top of the C++ config
  blocks of Verif.Config.Model and the shared-pointer cache of Verif.CApi.Utils.  Properties C124, C125.

  A handle is an address.  Every call that creates a block takes the address chosen by the allocator as a
  parameter; the allocator may reuse the address of a block that was destroyed.  Keys and values are the
  characters of the C strings passed in.  NULL key/value strings are not modelled (undefined in C++),
  nor is memory exhaustion.  All exceptions are derived from std::exception and end in STANDARD_CATCH
  with a NULL error handle (or one that was passed in: the effect on that handle is C48).
-/
namespace Vital.CApi.Cfg
open Vital Vital.Config Vital.CApi

/-- One call of the C interface (handles are addresses, 0 is NULL). -/
inductive Call where
  | new
  | newNamed (name : Str)
  | destroy (cb : Nat)
  | getName (cb : Nat)
  | subblock (cb : Nat) (key : Str)
  | subblockView (cb : Nat) (key : Str)
  | getValue (cb : Nat) (key : Str)
  | getValueBool (cb : Nat) (key : Str)
  | getValueDefault (cb : Nat) (key deflt : Str)
  | getValueDefaultBool (cb : Nat) (key : Str) (deflt : Bool)
  | getDescription (cb : Nat) (key : Str)
  | setValue (cb : Nat) (key value : Str)
  | setValueDescr (cb : Nat) (key value descr : Str)
  | unsetValue (cb : Nat) (key : Str)
  | isReadOnly (cb : Nat) (key : Str)
  | markReadOnly (cb : Nat) (key : Str)
  | mergeConfig (cb other : Nat)
  | hasValue (cb : Nat) (key : Str)
  | availableValues (cb : Nat)
  deriving DecidableEq, Repr

/-- What a call hands back. -/
inductive Res where
  | void
  | handle (cb : Nat)
  /-- a `vital_string_t*`: NULL, or the bytes of its buffer -/
  | str (s : Option (List (Option Char)))
  | bool (b : Bool)
  /-- the key list of available_values: output parameters untouched -/
  | noKeys
  /-- the key list; `none` = written past the end of a buffer (see C71) -/
  | keys (l : Option (List Buf))
  deriving DecidableEq

/-- State of a C program: the config blocks ever created (in order), the address each got, and
    CONFIG_BLOCK_SPTR_CACHE, where a shared pointer names its block by the block number (`tag`). -/
structure St where
  heap : Heap
  addr : List Nat
  cache : Cache

def St.init : St := ⟨[], [], CApi.empty⟩

/-- `vital_string_new( v.length(), v.c_str() )`. -/
def newString (v : Str) : Res := .str (some (stringNew v.length (some v)))

-- models: vital/bindings/c/config_block.cxx:120-124, 163-166, 181-184: CONFIG_BLOCK_SPTR_CACHE.store of the
-- block just created at address `a`, then return of that address; an exception makes it NULL
def storeNew (s : St) (a : Nat) (r : Heap × Except Exc Nat) : St × Res :=
  match r with
  | (hp, .error _) => ({ s with heap := hp }, .handle 0)
  | (hp, .ok b) =>
    match store s.cache ⟨a, b⟩ with
    | (c, .error _) => (⟨hp, s.addr ++ [a], c⟩, .handle 0)
    | (c, .ok ()) => (⟨hp, s.addr ++ [a], c⟩, .handle a)

-- models: vital/bindings/c/config_block.cxx:115-127 (vital_config_block_new_named)
def newNamed (s : St) (a : Nat) (name : Str) : St × Res := storeNew s a (emptyConfig s.heap name)

-- models: vital/bindings/c/config_block.cxx:102-111 (vital_config_block_new)
def new (s : St) (a : Nat) : St × Res := newNamed s a []

-- models: vital/bindings/c/config_block.cxx:131-139 (vital_config_block_destroy)
def destroy (s : St) (cb : Nat) : St × Res := ({ s with cache := (erase s.cache cb).1 }, .void)

-- models: vital/bindings/c/config_block.cxx:143-152 (vital_config_block_get_name)
def getName (s : St) (cb : Nat) : St × Res :=
  match get s.cache cb with
  | .error _ => (s, .str none)
  | .ok p => match Config.getName s.heap p.tag with
    | .error _ => (s, .str none)
    | .ok n => (s, newString n)

-- models: vital/bindings/c/config_block.cxx:156-169 (vital_config_block_subblock)
def subblock (s : St) (a cb : Nat) (key : Str) : St × Res :=
  match get s.cache cb with
  | .error _ => (s, .handle 0)
  | .ok p => storeNew s a (Config.subblock s.heap p.tag key)

-- models: vital/bindings/c/config_block.cxx:173-187 (vital_config_block_subblock_view)
def subblockView (s : St) (a cb : Nat) (key : Str) : St × Res :=
  match get s.cache cb with
  | .error _ => (s, .handle 0)
  | .ok p => storeNew s a (Config.subblockView s.heap p.tag key)

-- models: vital/bindings/c/config_block.cxx:191-203 (vital_config_block_get_value)
def getValue (s : St) (cb : Nat) (key : Str) : St × Res :=
  match get s.cache cb with
  | .error _ => (s, .str none)
  | .ok p => match getValueAs castString s.heap p.tag key with
    | .error _ => (s, .str none)
    | .ok v => (s, newString v)

-- models: vital/bindings/c/config_block.cxx:207-218 (vital_config_block_get_value_bool)
def getValueBool (s : St) (cb : Nat) (key : Str) : St × Res :=
  match get s.cache cb with
  | .error _ => (s, .bool false)
  | .ok p => match getValueAs castBool s.heap p.tag key with
    | .error _ => (s, .bool false)
    | .ok v => (s, .bool v)

-- models: vital/bindings/c/config_block.cxx:222-235 (vital_config_block_get_value_default)
def getValueDefault (s : St) (cb : Nat) (key deflt : Str) : St × Res :=
  match get s.cache cb with
  | .error _ => (s, .str none)
  | .ok p => match getValueDef castString s.heap p.tag key deflt with
    | .error _ => (s, .str none)
    | .ok v => (s, newString v)

-- models: vital/bindings/c/config_block.cxx:239-251 (vital_config_block_get_value_default_bool)
def getValueDefaultBool (s : St) (cb : Nat) (key : Str) (deflt : Bool) : St × Res :=
  match get s.cache cb with
  | .error _ => (s, .bool false)
  | .ok p => match getValueDef castBool s.heap p.tag key deflt with
    | .error _ => (s, .bool false)
    | .ok v => (s, .bool v)

-- models: vital/bindings/c/config_block.cxx:255-267 (vital_config_block_get_description): the text goes
-- through c_str() into a new string before it is copied out
def getDescription (s : St) (cb : Nat) (key : Str) : St × Res :=
  match get s.cache cb with
  | .error _ => (s, .str none)
  | .ok p => match Config.getDescription s.heap p.tag key with
    | .error _ => (s, .str none)
    | .ok v => (s, newString (cstr v))

-- models: vital/bindings/c/config_block.cxx:271-282 (vital_config_block_set_value)
def setValue (s : St) (cb : Nat) (key value : Str) : St × Res :=
  match get s.cache cb with
  | .error _ => (s, .void)
  | .ok p => ({ s with heap := (Config.setValue s.heap p.tag key value []).1 }, .void)

-- models: vital/bindings/c/config_block.cxx:286-298 (vital_config_block_set_value_descr)
def setValueDescr (s : St) (cb : Nat) (key value descr : Str) : St × Res :=
  match get s.cache cb with
  | .error _ => (s, .void)
  | .ok p => ({ s with heap := (Config.setValue s.heap p.tag key value descr).1 }, .void)

-- models: vital/bindings/c/config_block.cxx:302-311 (vital_config_block_unset_value)
def unsetValue (s : St) (cb : Nat) (key : Str) : St × Res :=
  match get s.cache cb with
  | .error _ => (s, .void)
  | .ok p => ({ s with heap := (Config.unsetValue s.heap p.tag key).1 }, .void)

-- models: vital/bindings/c/config_block.cxx:315-325 (vital_config_block_is_read_only)
def isReadOnly (s : St) (cb : Nat) (key : Str) : St × Res :=
  match get s.cache cb with
  | .error _ => (s, .bool false)
  | .ok p => match Config.isReadOnly s.heap p.tag key with
    | .error _ => (s, .bool false)
    | .ok v => (s, .bool v)

-- models: vital/bindings/c/config_block.cxx:329-338 (vital_config_block_mark_read_only)
def markReadOnly (s : St) (cb : Nat) (key : Str) : St × Res :=
  match get s.cache cb with
  | .error _ => (s, .void)
  | .ok p => ({ s with heap := (Config.markReadOnly s.heap p.tag key).1 }, .void)

-- models: vital/bindings/c/config_block.cxx:342-353 (vital_config_block_merge_config)
def mergeConfig (s : St) (cb other : Nat) : St × Res :=
  match get s.cache cb with
  | .error _ => (s, .void)
  | .ok p => match get s.cache other with
    | .error _ => (s, .void)
    | .ok q => ({ s with heap := (Config.mergeConfig s.heap p.tag q.tag).1 }, .void)

-- models: vital/bindings/c/config_block.cxx:357-367 (vital_config_block_has_value)
def hasValue (s : St) (cb : Nat) (key : Str) : St × Res :=
  match get s.cache cb with
  | .error _ => (s, .bool false)
  | .ok p => match Config.hasValue s.heap p.tag key with
    | .error _ => (s, .bool false)
    | .ok v => (s, .bool v)

-- models: vital/bindings/c/config_block.cxx:371-389 (vital_config_block_available_values), with output
-- parameters that are not NULL
def availableValues (s : St) (cb : Nat) : St × Res :=
  match get s.cache cb with
  | .error _ => (s, .noKeys)
  | .ok p => match Config.availableValues s.heap p.tag with
    | .error _ => (s, .noKeys)
    | .ok ks => (s, .keys (makeStringList ks))

/-- Perform a call; `a` is the address the allocator returns if the call creates a block. -/
def exec (s : St) (a : Nat) : Call → St × Res
  | .new => new s a
  | .newNamed n => newNamed s a n
  | .destroy cb => destroy s cb
  | .getName cb => getName s cb
  | .subblock cb k => subblock s a cb k
  | .subblockView cb k => subblockView s a cb k
  | .getValue cb k => getValue s cb k
  | .getValueBool cb k => getValueBool s cb k
  | .getValueDefault cb k d => getValueDefault s cb k d
  | .getValueDefaultBool cb k d => getValueDefaultBool s cb k d
  | .getDescription cb k => getDescription s cb k
  | .setValue cb k v => setValue s cb k v
  | .setValueDescr cb k v d => setValueDescr s cb k v d
  | .unsetValue cb k => unsetValue s cb k
  | .isReadOnly cb k => isReadOnly s cb k
  | .markReadOnly cb k => markReadOnly s cb k
  | .mergeConfig cb o => mergeConfig s cb o
  | .hasValue cb k => hasValue s cb k
  | .availableValues cb => availableValues s cb

def execAll : St → List (Nat × Call) → St × List Res
  | s, [] => (s, [])
  | s, (a, c) :: l =>
    let (s', r) := exec s a c
    let (s'', rs) := execAll s' l
    (s'', r :: rs)

/-! ### Specification: the C++ program that a C program stands for -/

/-- The C++ side: the blocks, where they live, and which block a handle names (`none`: dead or NULL). -/
structure Prog where
  heap : Heap
  addr : List Nat
  table : Nat → Option Nat

def Prog.init : Prog := ⟨[], [], fun _ => none⟩

/-- Block `a` is block `b` or one of the blocks it is a view of: what a shared pointer to `b` keeps alive. -/
inductive KeptBy (h : Heap) : Nat → Nat → Prop where
  | self {b} : KeptBy h b b
  | up {b blk p a} : h[b]? = some blk → blk.parent = some p → KeptBy h p a → KeptBy h b a

/-- A block that has not been destroyed: some handle still needs it. -/
def Live (p : Prog) (a : Nat) : Prop := ∃ cb b, p.table cb = some b ∧ KeptBy p.heap b a

/-- The allocator may return any address except NULL and those of blocks still alive. -/
def Legal (p : Prog) (a : Nat) : Prop := a ≠ 0 ∧ ∀ b, Live p b → p.addr[b]? ≠ some a

/-- What a call that reads through handle `cb` should return: `dflt` for a dead handle or when the C++
    call throws, else the C++ result. -/
def Prog.read {T : Type} (p : Prog) (cb : Nat) (f : Heap → Nat → Except Exc T) (dflt : Res) (r : T → Res) : Prog × Res :=
  (p, match p.table cb with
      | none => dflt
      | some b => match f p.heap b with
        | .ok t => r t
        | .error _ => dflt)

/-- What a call that writes through handle `cb` should do: nothing for a dead handle, else what the C++
    call does (also when it throws). -/
def Prog.write (p : Prog) (cb : Nat) (f : Heap → Nat → Heap) : Prog × Res :=
  (match p.table cb with
   | none => p
   | some b => { p with heap := f p.heap b }, .void)

/-- A new block, the last of heap `hp`, at address `a`, with its handle. -/
def Prog.created (p : Prog) (hp : Heap) (a : Nat) : Prog × Res :=
  ({ heap := hp, addr := p.addr ++ [a], table := fun cb => if cb = a then some p.heap.length else p.table cb }, .handle a)

def Prog.make (p : Prog) (a cb : Nat) (f : Heap → Nat → Heap × Except Exc Nat) : Prog × Res :=
  match p.table cb with
  | none => (p, .handle 0)
  | some b => match f p.heap b with
    | (hp, .ok _) => p.created hp a
    | (_, .error _) => (p, .handle 0)

/-- The effect each C call should have on the C++ program. -/
def spec (p : Prog) (a : Nat) : Call → Prog × Res
  | .new => p.created (emptyConfig p.heap []).1 a
  | .newNamed n => p.created (emptyConfig p.heap n).1 a
  | .destroy cb => ({ p with table := fun x => if x = cb then none else p.table x }, .void)
  | .getName cb => p.read cb Config.getName (.str none) newString
  | .subblock cb k => p.make a cb (fun h b => Config.subblock h b k)
  | .subblockView cb k => p.make a cb (fun h b => Config.subblockView h b k)
  | .getValue cb k => p.read cb (fun h b => Config.getValue h b k) (.str none) newString
  | .getValueBool cb k => p.read cb (fun h b => getValueAs castBool h b k) (.bool false) .bool
  | .getValueDefault cb k d => p.read cb (fun h b => getValueDef castString h b k d) (.str none) newString
  | .getValueDefaultBool cb k d => p.read cb (fun h b => getValueDef castBool h b k d) (.bool false) .bool
  | .getDescription cb k => p.read cb (fun h b => Config.getDescription h b k) (.str none) (fun d => newString (cstr d))
  | .setValue cb k v => p.write cb (fun h b => (Config.setValue h b k v []).1)
  | .setValueDescr cb k v d => p.write cb (fun h b => (Config.setValue h b k v d).1)
  | .unsetValue cb k => p.write cb (fun h b => (Config.unsetValue h b k).1)
  | .isReadOnly cb k => p.read cb (fun h b => Config.isReadOnly h b k) (.bool false) .bool
  | .markReadOnly cb k => p.write cb (fun h b => (Config.markReadOnly h b k).1)
  | .mergeConfig cb o =>
    match p.table o with
    | none => (p, .void)
    | some c => p.write cb (fun h b => (Config.mergeConfig h b c).1)
  | .hasValue cb k => p.read cb (fun h b => Config.hasValue h b k) (.bool false) .bool
  | .availableValues cb => p.read cb (fun h b => Config.availableValues h b) .noKeys (fun ks => .keys (makeStringList ks))

def specAll : Prog → List (Nat × Call) → Prog × List Res
  | p, [] => (p, [])
  | p, (a, c) :: l =>
    let (p', r) := spec p a c
    let (p'', rs) := specAll p' l
    (p'', r :: rs)

/-- Every address the allocator returns along the run is legal at that moment. -/
def LegalRun : Prog → List (Nat × Call) → Prop
  | _, [] => True
  | p, (a, c) :: l => Legal p a ∧ LegalRun (spec p a c).1 l

end Vital.CApi.Cfg
