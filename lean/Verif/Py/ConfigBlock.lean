import Verif.CApi.ConfigHandlesProps
/-
  The Python class ConfigBlock (vital/bindings/python/vital/config_block.py, util/error_handle.py, util/string.py) on top of the C
  interface of Verif.CApi.ConfigHandles; properties C211 - C213.

  Python strings reach the C side as C strings (ctypes: cut at the first NUL), and C strings come back as Python strings.  A call that
  returns a NULL `vital_string_t*` yields a ctypes pointer object that is false, but not None.  `usable n` is the number of bytes that a
  block from malloc( n ) really has (malloc_usable_size); with `usable n = n` every write past the requested size counts as undefined
  behaviour, larger values describe a given allocator.  An object is destroyed when Python collects it (C144).  The texts of the C++
  exceptions are a parameter.  The file functions (from_file, read, write, as_string) are left out here (C126).
-/
namespace Vital.Py.CB
open Vital Vital.Config Vital.CApi

/-- One statement of a Python program; objects are numbered in the order of their creation. -/
inductive Op where
  | new (name : Option Str)
  | subblock (x : Nat) (key : Str)
  | subblockView (x : Nat) (key : Str)
  | name (x : Nat)
  | getValue (x : Nat) (key : Str) (dflt : Option Str)
  | getValueBool (x : Nat) (key : Str) (dflt : Option Bool)
  | getDescription (x : Nat) (key : Str)
  | setValue (x : Nat) (key value : Str) (descr : Option Str)
  | unsetValue (x : Nat) (key : Str)
  | isReadOnly (x : Nat) (key : Str)
  | markReadOnly (x : Nat) (key : Str)
  | merge (x y : Nat)
  | hasValue (x : Nat) (key : Str)
  | availableKeys (x : Nat)
  | asDict (x : Nat)
  /-- the last reference to the object is gone -/
  | collect (x : Nat)
  deriving DecidableEq

inductive Val where
  | none
  | str (s : Str)
  | bool (b : Bool)
  | keys (l : List Str)
  | dict (l : List (Str × Option Str))
  | obj (x : Nat)
  deriving DecidableEq

inductive Exn where
  /-- VitalConfigBlockNoSuchValueException with the message of the C side -/
  | noSuchValue (msg : Str)
  /-- ValueError: NULL pointer access -/
  | nullPointer
  deriving DecidableEq

/-- A statement's outcome; `none` = undefined behaviour. -/
abbrev Out := Option (Except Exn Val)

/-- The C side, the handle of each Python object (`none` once it is collected), and how many blocks that the C side
    allocated for Python (strings, string lists, error handles) have not been freed. -/
structure St where
  c : Cfg.St
  objs : List (Option Nat)
  owed : Nat

def St.init : St := ⟨Cfg.St.init, [], 0⟩

/-- The handle passed for object `x`. -/
def St.ptr (s : St) (x : Nat) : Nat := ((s.objs[x]?).getD none).getD 0

/-- The Python string for a `char*` into this buffer. -/
def pyStr (b : List (Option Char)) : Str := cstr (b.map fun c => c.getD nul)

/-- `vital_string_t*` results: one more block to free when it is not NULL. -/
def gotStr (s : St) (r : Cfg.St × Cfg.Res) : St × Option Str :=
  match r.2 with
  | .str (some b) => ({ s with c := r.1, owed := s.owed + 1 }, some (pyStr b))
  | _ => ({ s with c := r.1 }, none)

-- models: MST_FREE, vital_common_free_string_list, vital_eh_destroy
def free (s : St) : St := { s with owed := s.owed - 1 }

/-- A new Python object for a handle. -/
def newObj (s : St) (r : Cfg.St × Cfg.Res) : St × Out :=
  ({ s with c := r.1, objs := s.objs ++ [some (match r.2 with | .handle h => h | _ => 0)] }, some (.ok (.obj s.objs.length)))

-- models: vital/bindings/python/vital/config_block.py:95-116 (__init__): an empty name counts as no name
def new (s : St) (a : Nat) (name : Option Str) : St × Out :=
  match name with
  | none => newObj s (Cfg.new s.c a)
  | some n => if n = [] then newObj s (Cfg.new s.c a) else newObj s (Cfg.newNamed s.c a (cstr n))

-- models: vital/bindings/python/vital/config_block.py:139-153 (subblock)
def subblock (s : St) (a x : Nat) (key : Str) : St × Out := newObj s (Cfg.subblock s.c a (s.ptr x) (cstr key))

-- models: vital/bindings/python/vital/config_block.py:155-172 (subblock_view)
def subblockView (s : St) (a x : Nat) (key : Str) : St × Out := newObj s (Cfg.subblockView s.c a (s.ptr x) (cstr key))

-- models: vital/bindings/python/vital/config_block.py:123-137 (name): `contents` of a NULL pointer raises
def name (s : St) (x : Nat) : St × Out :=
  match gotStr s (Cfg.getName s.c (s.ptr x)) with
  | (s', none) => (s', some (.error .nullPointer))
  | (s', some v) => (free s', some (.ok (.str v)))

def optStr : Option Str → Val
  | none => .none
  | some s => .str s

/-- The value that get_value computes, with the state after it. -/
-- models: vital/bindings/python/vital/config_block.py:174-204 (get_value)
def getValueStr (s : St) (x : Nat) (key : Str) (dflt : Option Str) : St × Option Str :=
  match gotStr s (Cfg.getValue s.c (s.ptr x) (cstr key)) with
  | (s', none) => (s', dflt)
  | (s', some v) => (free s', some v)

def getValue (s : St) (x : Nat) (key : Str) (dflt : Option Str) : St × Out :=
  ((getValueStr s x key dflt).1, some (.ok (optStr (getValueStr s x key dflt).2)))

/-- The message that STANDARD_CATCH leaves in a real error handle, when it fits. -/
-- models: vital/bindings/c/helpers/c_utils.h:64-76, 89-121 with the allocator `usable`
def caught (usable : Nat → Nat) (what : Str) : Option Str :=
  let msg := cstr (message (.stdException what))
  if msg.length + 1 ≤ usable msg.length then some msg else none

/-- The exception text of a C call through handle `cb` whose C++ part is `f`, if it throws. -/
def thrown {T : Type} (what : Exc → Str) (dead : Str) (s : St) (cb : Nat) (f : Heap → Nat → Except Exc T) : Option Str :=
  match get s.c.cache cb with
  | .error _ => some dead
  | .ok p => match f s.c.heap p.tag with
    | .error e => some (what e)
    | .ok _ => none

/-- What the surrounding `with VitalErrorHandle() as eh:` makes of a call that returned `r` and may have thrown. -/
-- models: vital/bindings/python/vital/util/error_handle.py:41-83 with the map { -1: VitalConfigBlockNoSuchValueException }
def withHandle (usable : Nat → Nat) (t : Option Str) (r : Cfg.Res) : Out :=
  match t with
  | none => some (.ok (match r with | .bool b => .bool b | _ => .none))
  | some w => match caught usable w with
    | none => none
    | some msg => some (.error (.noSuchValue msg))

-- models: vital/bindings/python/vital/config_block.py:206-242 (get_value_bool); the error handle is created and destroyed in it
def getValueBool (usable : Nat → Nat) (what : Exc → Str) (dead : Str) (s : St) (x : Nat) (key : Str) (dflt : Option Bool) : St × Out :=
  let s1 := { s with owed := s.owed + 1 }
  match dflt with
  | none =>
    let r := Cfg.getValueBool s.c (s.ptr x) (cstr key)
    (free { s1 with c := r.1 }, withHandle usable (thrown what dead s (s.ptr x) (fun h b => getValueAs castBool h b (cstr key))) r.2)
  | some d =>
    let r := Cfg.getValueDefaultBool s.c (s.ptr x) (cstr key) d
    (free { s1 with c := r.1 }, withHandle usable (thrown what dead s (s.ptr x) (fun h b => getValueDef castBool h b (cstr key) d)) r.2)

-- models: vital/bindings/python/vital/config_block.py:244-271 (get_description): a NULL pointer is not None
def getDescription (s : St) (x : Nat) (key : Str) : St × Out :=
  match gotStr s (Cfg.getDescription s.c (s.ptr x) (cstr key)) with
  | (s', none) => (s', some (.error .nullPointer))
  | (s', some v) => (free s', some (.ok (.str v)))

-- models: vital/bindings/python/vital/config_block.py:273-305 (set_value)
def setValue (s : St) (x : Nat) (key value : Str) (descr : Option Str) : St × Out :=
  match descr with
  | none => ({ s with c := (Cfg.setValue s.c (s.ptr x) (cstr key) (cstr value)).1 }, some (.ok .none))
  | some d => ({ s with c := (Cfg.setValueDescr s.c (s.ptr x) (cstr key) (cstr value) (cstr d)).1 }, some (.ok .none))

-- models: vital/bindings/python/vital/config_block.py:307-319 (unset_value)
def unsetValue (s : St) (x : Nat) (key : Str) : St × Out := ({ s with c := (Cfg.unsetValue s.c (s.ptr x) (cstr key)).1 }, some (.ok .none))

def boolOf (r : Cfg.Res) : Val := match r with | .bool b => .bool b | _ => .none

-- models: vital/bindings/python/vital/config_block.py:321-336 (is_read_only)
def isReadOnly (s : St) (x : Nat) (key : Str) : St × Out :=
  let r := Cfg.isReadOnly s.c (s.ptr x) (cstr key)
  ({ s with c := r.1 }, some (.ok (boolOf r.2)))

-- models: vital/bindings/python/vital/config_block.py:338-351 (mark_read_only)
def markReadOnly (s : St) (x : Nat) (key : Str) : St × Out := ({ s with c := (Cfg.markReadOnly s.c (s.ptr x) (cstr key)).1 }, some (.ok .none))

-- models: vital/bindings/python/vital/config_block.py:353-367 (merge_config)
def merge (s : St) (x y : Nat) : St × Out := ({ s with c := (Cfg.mergeConfig s.c (s.ptr x) (s.ptr y)).1 }, some (.ok .none))

-- models: vital/bindings/python/vital/config_block.py:369-383 (has_value)
def hasValue (s : St) (x : Nat) (key : Str) : St × Out :=
  let r := Cfg.hasValue s.c (s.ptr x) (cstr key)
  ({ s with c := r.1 }, some (.ok (boolOf r.2)))

/-- make_string_list with the allocator `usable`: the strings read back, `none` = a block was too small. -/
-- models: vital/bindings/c/helpers/c_utils.cxx:42-52
def stringList (usable : Nat → Nat) : List Str → Option (List Str)
  | [] => some []
  | k :: l => if (cstr k).length + 1 ≤ usable k.length then (stringList usable l).map (cstr k :: ·) else none

/-- The list that available_keys computes. -/
-- models: vital/bindings/python/vital/config_block.py:385-408 (available_keys) with vital_config_block_available_values
-- (vital/bindings/c/config_block.cxx:371-389): the output parameters stay 0 and NULL when it throws
def keyList (usable : Nat → Nat) (s : St) (x : Nat) : St × Option (List Str) :=
  match get s.c.cache (s.ptr x) with
  | .error _ => (s, some [])
  | .ok p => match Config.availableValues s.c.heap p.tag with
    | .error _ => (s, some [])
    | .ok ks => (free { s with owed := s.owed + 1 }, stringList usable ks)

def availableKeys (usable : Nat → Nat) (s : St) (x : Nat) : St × Out :=
  ((keyList usable s x).1, (keyList usable s x).2.map fun l => .ok (.keys l))

/-- Assignment `d[k] = v`. -/
def dictSet (d : List (Str × Option Str)) (k : Str) (v : Option Str) : List (Str × Option Str) :=
  if d.any (fun e => e.1 = k) then d.map (fun e => if e.1 = k then (k, v) else e) else d ++ [(k, v)]

/-- The loop of as_dict. -/
def dictLoop (x : Nat) : List Str → St → List (Str × Option Str) → St × List (Str × Option Str)
  | [], s, d => (s, d)
  | k :: ks, s, d => dictLoop x ks (getValueStr s x k none).1 (dictSet d k (getValueStr s x k none).2)

-- models: vital/bindings/python/vital/config_block.py:446-458 (as_dict)
def asDict (usable : Nat → Nat) (s : St) (x : Nat) : St × Out :=
  match keyList usable s x with
  | (s', none) => (s', none)
  | (s', some l) => ((dictLoop x l s' []).1, some (.ok (.dict (dictLoop x l s' []).2)))

-- models: VitalObject.py:153-155 (__del__) and config_block.py:118-121 (_destroy): only for a handle that is not NULL
def collect (s : St) (x : Nat) : St × Out :=
  if s.ptr x = 0 then ({ s with objs := s.objs.set x none }, some (.ok .none))
  else ({ s with c := (Cfg.destroy s.c (s.ptr x)).1, objs := s.objs.set x none }, some (.ok .none))

/-- One statement; `a` is the address of the block it creates, if any. -/
def step (usable : Nat → Nat) (what : Exc → Str) (dead : Str) (s : St) (a : Nat) : Op → St × Out
  | .new n => new s a n
  | .subblock x k => subblock s a x k
  | .subblockView x k => subblockView s a x k
  | .name x => name s x
  | .getValue x k d => getValue s x k d
  | .getValueBool x k d => getValueBool usable what dead s x k d
  | .getDescription x k => getDescription s x k
  | .setValue x k v d => setValue s x k v d
  | .unsetValue x k => unsetValue s x k
  | .isReadOnly x k => isReadOnly s x k
  | .markReadOnly x k => markReadOnly s x k
  | .merge x y => merge s x y
  | .hasValue x k => hasValue s x k
  | .availableKeys x => availableKeys usable s x
  | .asDict x => asDict usable s x
  | .collect x => collect s x

def run (usable : Nat → Nat) (what : Exc → Str) (dead : Str) : St → List (Nat × Op) → St × List Out
  | s, [] => (s, [])
  | s, (a, o) :: l => ((run usable what dead (step usable what dead s a o).1 l).1, (step usable what dead s a o).2 :: (run usable what dead (step usable what dead s a o).1 l).2)

/-! ### Specification: the C++ program that the Python program stands for, with the documented results -/

/-- The blocks, and the Python objects: `none` once it is collected, `some none` for an object whose C++ block could not be made. -/
structure Prog where
  heap : Heap
  objs : List (Option (Option Nat))

def Prog.init : Prog := ⟨[], []⟩

/-- The block of object `x`. -/
def Prog.blk (p : Prog) (x : Nat) : Option Nat := ((p.objs[x]?).getD none).getD none

/-- A new object for the block that a C++ call made; for none when the call threw. -/
def Prog.make (p : Prog) (r : Heap × Except Exc Nat) : Prog × Except Exn Val := (⟨r.1, p.objs ++ [some r.2.toOption]⟩, .ok (.obj p.objs.length))

/-- The C++ call on the block of `x` that only reads; the text of the exception if it throws. -/
def Prog.ask {T : Type} (what : Exc → Str) (dead : Str) (p : Prog) (x : Nat) (f : Heap → Nat → Except Exc T) : Except Str T :=
  match p.blk x with
  | none => .error dead
  | some b => match f p.heap b with
    | .ok v => .ok v
    | .error e => .error (what e)

/-- The C++ call on the block of `x` that changes blocks; its exception is swallowed. -/
def Prog.tell (p : Prog) (x : Nat) (f : Heap → Nat → Heap) : Prog × Except Exn Val :=
  (match p.blk x with
   | none => p
   | some b => { p with heap := f p.heap b }, .ok .none)

/-- The elements in the order of their first occurrence. -/
def firsts : List Str → List Str
  | [] => []
  | k :: ks => k :: (firsts ks).filter (fun x => x ≠ k)

/-- "mapping available keys to their string values" -/
def docDict (value : Str → Option Str) (ks : List Str) : List (Str × Option Str) := (firsts ks).map fun k => (k, value k)

section
variable (what : Exc → Str) (dead : Str)

/-- The documented value of get_value: the text, or the default. -/
def docValue (p : Prog) (x : Nat) (key : Str) (dflt : Option Str) : Option Str :=
  match p.ask what dead x (fun h b => Config.getValue h b (cstr key)) with
  | .ok v => some (cstr v)
  | .error _ => dflt

def docKeys (p : Prog) (x : Nat) : List Str :=
  match p.ask what dead x (fun h b => Config.availableValues h b) with
  | .ok ks => ks.map cstr
  | .error _ => []

/-- The answer of a question with a yes or no; "raises VitalConfigBlockNoSuchValueException". -/
def orRaise : Except Str Bool → Except Exn Val
  | .ok v => .ok (.bool v)
  | .error t => .error (.noSuchValue (cstr (message (.stdException t))))

def orFalse : Except Str Bool → Except Exn Val
  | .ok v => .ok (.bool v)
  | .error _ => .ok (.bool false)

def orNone : Except Str Str → Except Exn Val
  | .ok v => .ok (.str (cstr v))
  | .error _ => .ok .none

/-- The documented effect and result of a statement; `what` gives the texts of the C++ exceptions, `dead` that for an object without block. -/
def doc (p : Prog) : Op → Prog × Except Exn Val
  | .new n => p.make (emptyConfig p.heap (cstr (n.getD [])))
  | .subblock x k => p.make (match p.blk x with
    | none => (p.heap, .error .ub)
    | some b => Config.subblock p.heap b (cstr k))
  | .subblockView x k => p.make (match p.blk x with
    | none => (p.heap, .error .ub)
    | some b => Config.subblockView p.heap b (cstr k))
  | .name x => (p, orNone (p.ask what dead x Config.getName))
  | .getValue x k d => (p, .ok (optStr (docValue what dead p x k d)))
  | .getValueBool x k none => (p, orRaise (p.ask what dead x (fun h b => getValueAs castBool h b (cstr k))))
  | .getValueBool x k (some d) => (p, orRaise (p.ask what dead x (fun h b => getValueDef castBool h b (cstr k) d)))
  | .getDescription x k => (p, orNone (p.ask what dead x (fun h b => Config.getDescription h b (cstr k))))
  | .setValue x k v d => p.tell x (fun h b => (Config.setValue h b (cstr k) (cstr v) (cstr (d.getD []))).1)
  | .unsetValue x k => p.tell x (fun h b => (Config.unsetValue h b (cstr k)).1)
  | .isReadOnly x k => (p, orFalse (p.ask what dead x (fun h b => Config.isReadOnly h b (cstr k))))
  | .markReadOnly x k => p.tell x (fun h b => (Config.markReadOnly h b (cstr k)).1)
  | .merge x y => match p.blk y with
    | none => (p, .ok .none)
    | some c => p.tell x (fun h b => (Config.mergeConfig h b c).1)
  | .hasValue x k => (p, orFalse (p.ask what dead x (fun h b => Config.hasValue h b (cstr k))))
  | .availableKeys x => (p, .ok (.keys (docKeys what dead p x)))
  | .asDict x => (p, .ok (.dict (docDict (fun k => docValue what dead p x k none) (docKeys what dead p x))))
  | .collect x => ({ p with objs := p.objs.set x none }, .ok .none)

def docAll : Prog → List (Nat × Op) → Prog × List (Except Exn Val)
  | p, [] => (p, [])
  | p, (_, o) :: l => ((docAll (doc what dead p o).1 l).1, (doc what dead p o).2 :: (docAll (doc what dead p o).1 l).2)

/-- The objects a statement uses. -/
def Op.uses : Op → List Nat
  | .new _ => []
  | .subblock x _ | .subblockView x _ | .name x | .getValue x _ _ | .getValueBool x _ _ | .getDescription x _ | .setValue x _ _ _
  | .unsetValue x _ | .isReadOnly x _ | .markReadOnly x _ | .hasValue x _ | .availableKeys x | .asDict x | .collect x => [x]
  | .merge x y => [x, y]

/-- The program uses only objects it still has. -/
def Uses (p : Prog) (o : Op) : Prop := ∀ x ∈ o.uses, ∃ v, p.objs[x]? = some (some v)

/-- The allocator does not hand out the address of a block that some object still needs. -/
def Fresh (s : St) (a : Nat) : Prop :=
  a ≠ 0 ∧ ∀ (x cb : Nat) (sp : Sptr) (b : Nat), s.objs[x]? = some (some cb) → get s.c.cache cb = .ok sp → Cfg.KeptBy s.c.heap sp.tag b → s.c.addr[b]? ≠ some a

/-- A run in which the program uses only objects it has, and the allocator only free memory. -/
def Legal (usable : Nat → Nat) : St → Prog → List (Nat × Op) → Prop
  | _, _, [] => True
  | s, p, (a, o) :: l => Uses p o ∧ Fresh s a ∧ Legal usable (step usable what dead s a o).1 (doc what dead p o).1 l

/-- Full property C211: every Python program over config blocks gets the documented results, and what the C side allocates for it is freed. -/
def C211_statement (usable : Nat → Nat) : Prop := ∀ l, Legal what dead usable St.init Prog.init l →
  (run usable what dead St.init l).2 = (docAll what dead Prog.init l).2.map some ∧ (run usable what dead St.init l).1.owed = 0

/-- The statements for which the documented result is what happens: those that do not ask for a description that is not there, or for
    the name of an object without a block, and for which the C side's buffers (one byte short) are large enough all the same. -/
def Safe (usable : Nat → Nat) (p : Prog) : Op → Prop
  | .name x => ∃ b, p.blk x = some b
  | .getDescription x k => ∃ d, p.ask what dead x (fun h b => Config.getDescription h b (cstr k)) = .ok d
  | .getValueBool x k none => ∀ t, p.ask what dead x (fun h b => getValueAs castBool h b (cstr k)) = .error t → (caught usable t).isSome
  | .getValueBool x k (some d) => ∀ t, p.ask what dead x (fun h b => getValueDef castBool h b (cstr k) d) = .error t → (caught usable t).isSome
  | .availableKeys x | .asDict x => ∀ ks, p.ask what dead x (fun h b => Config.availableValues h b) = .ok ks → (stringList usable ks).isSome
  | _ => True

def SafeRun (usable : Nat → Nat) : Prog → List (Nat × Op) → Prop
  | _, [] => True
  | p, (_, o) :: l => Safe what dead usable p o ∧ SafeRun usable (doc what dead p o).1 l

/-- What happens instead of the documented result, if anything: `contents` of a NULL pointer raises; a text or a key that is as long
    as its block is written past the end of it. -/
def fault (usable : Nat → Nat) (p : Prog) : Op → Option Out
  | .name x => match p.ask what dead x Config.getName with
    | .ok _ => none
    | .error _ => some (some (.error .nullPointer))
  | .getDescription x k => match p.ask what dead x (fun h b => Config.getDescription h b (cstr k)) with
    | .ok _ => none
    | .error _ => some (some (.error .nullPointer))
  | .getValueBool x k none => match p.ask what dead x (fun h b => getValueAs castBool h b (cstr k)) with
    | .ok _ => none
    | .error t => if (cstr (message (.stdException t))).length + 1 ≤ usable (cstr (message (.stdException t))).length then none else some none
  | .getValueBool x k (some d) => match p.ask what dead x (fun h b => getValueDef castBool h b (cstr k) d) with
    | .ok _ => none
    | .error t => if (cstr (message (.stdException t))).length + 1 ≤ usable (cstr (message (.stdException t))).length then none else some none
  | .availableKeys x | .asDict x => match p.ask what dead x (fun h b => Config.availableValues h b) with
    | .ok ks => if ∀ k ∈ ks, (cstr k).length + 1 ≤ usable k.length then none else some none
    | .error _ => none
  | _ => none

/-- The outcome of a statement: the fault, or else the documented result. -/
def real (usable : Nat → Nat) (p : Prog) (o : Op) : Out := (fault what dead usable p o).getD (some (doc what dead p o).2)

def realAll (usable : Nat → Nat) : Prog → List (Nat × Op) → List Out
  | _, [] => []
  | p, (_, o) :: l => real what dead usable p o :: realAll usable (doc what dead p o).1 l
end

/-- malloc of glibc on a 64 bit machine: chunks are multiples of 16, at least 32, and 8 bytes of each are taken. -/
def glibc (n : Nat) : Nat := max 32 ((n + 23) / 16 * 16) - 8

end Vital.Py.CB
