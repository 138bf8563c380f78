import Verif.Basic.Str
/-
  Model of `kwiver::vital::config_block` (vital/config/config_block.{h,cxx}).

  Blocks live in a heap because views share their parent (`config_block_sptr m_parent`).
  An address is an index in the heap; addresses are never reused.  A dangling or null address and
  an endless parent chain are the distinct outcome `Exc.ub`.
-/
namespace Vital.Config
open Vital

/-- Exceptions that the modelled functions throw.  `ub` is not an exception: it marks undefined
    behaviour (null / dangling pointer, erasing an end iterator, unbounded recursion). -/
inductive Exc where
  /-- `no_such_configuration_value_exception( key )` -/
  | noSuch (key : Str)
  /-- `set_on_read_only_value_exception( key, current_value, value )` -/
  | setRO (key cur new : Str)
  /-- `unset_on_read_only_value_exception( key, current_value )` -/
  | unsetRO (key cur : Str)
  /-- `bad_config_block_cast_exception( key, value, .. )` -/
  | badCast (key value : Str)
  | ub
  deriving DecidableEq, Repr

-- models: vital/config/config_block.h:407-420 (class source_location); the shared file name is
-- modelled by its text (nobody mutates it)
abbrev Loc := Str × Int

-- models: vital/config/config_block.h:379-425 (data members of config_block)
structure Block where
  parent : Option Nat
  name   : Str
  store  : OMap Str Str
  descr  : OMap Str Str
  ro     : List Str
  defs   : OMap Str Loc
  deriving DecidableEq, Repr

abbrev Heap := List Block

-- models: vital/config/config_block.cxx:89 (block_sep)
def blockSep : Str := c!":"
-- models: vital/config/config_block.cxx:90 (global_value)
def globalValue : Str := c!"_global"

-- models: vital/config/config_block.cxx:314-323 (constructor)
def mkBlock (name : Str) (parent : Option Nat) : Block :=
  { parent := parent, name := name, store := [], descr := [], ro := [], defs := [] }

-- models: vital/config/config_block.cxx:488-495 (does_not_begin_with)
def doesNotBeginWith (key name : Str) : Bool :=
  !(startsWith key (name ++ blockSep)) && !(startsWith key (globalValue ++ blockSep))

-- models: vital/config/config_block.cxx:509-518 (strip_block_name)
def stripBlockName (subblock key : Str) : Str :=
  if !(startsWith key (subblock ++ blockSep)) then key
  else key.drop (subblock.length + blockSep.length)

/-! Member functions that follow `m_parent`.  The first argument bounds the recursion depth; the
    public versions below use the number of blocks, which a chain of distinct blocks cannot exceed. -/

-- models: vital/config/config_block.cxx:164-180 (get_description)
def getDescriptionF : Nat → Heap → Nat → Str → Except Exc Str
  | 0, _, _, _ => .error .ub
  | n + 1, h, b, key =>
    match h[b]? with
    | none => .error .ub
    | some blk =>
      match blk.parent with
      | some p => getDescriptionF n h p (blk.name ++ blockSep ++ key)
      | none =>
        match blk.descr.find? key with
        | none => .error (.noSuch key)
        | some d => .ok d

-- models: vital/config/config_block.cxx:299-309 (has_value)
def hasValueF : Nat → Heap → Nat → Str → Except Exc Bool
  | 0, _, _, _ => .error .ub
  | n + 1, h, b, key =>
    match h[b]? with
    | none => .error .ub
    | some blk =>
      match blk.parent with
      | some p => hasValueF n h p (blk.name ++ blockSep ++ key)
      | none => .ok (blk.store.contains key)

-- models: vital/config/config_block.cxx:344-361 (i_get_value)
def iGetValueF : Nat → Heap → Nat → Str → Except Exc Str
  | 0, _, _, _ => .error .ub
  | n + 1, h, b, key =>
    match h[b]? with
    | none => .error .ub
    | some blk =>
      match blk.parent with
      | some p => iGetValueF n h p (blk.name ++ blockSep ++ key)
      | none =>
        match blk.store.find? key with
        | none => .ok []
        | some v => .ok v

-- models: vital/config/config_block.cxx:264-294 (available_values)
def availableValuesF : Nat → Heap → Nat → Except Exc (List Str)
  | 0, _, _ => .error .ub
  | n + 1, h, b =>
    match h[b]? with
    | none => .error .ub
    | some blk =>
      match blk.parent with
      | some p =>
        match availableValuesF n h p with
        | .error e => .error e
        | .ok parentKeys =>
          .ok ((parentKeys.filter (fun k => !(doesNotBeginWith k blk.name))).map
                 (fun k => stripBlockName blk.name k))
      | none => .ok blk.store.keys

def getDescription (h : Heap) := getDescriptionF h.length h
def hasValue (h : Heap) := hasValueF h.length h
def iGetValue (h : Heap) := iGetValueF h.length h
def availableValues (h : Heap) := availableValuesF h.length h

-- models: vital/config/config_block.cxx:328-339 (find_value)
def findValue (h : Heap) (b : Nat) (key : Str) : Except Exc (Option Str) :=
  match hasValue h b key with
  | .error e => .error e
  | .ok false => .ok none
  | .ok true =>
    match iGetValue h b key with
    | .error e => .error e
    | .ok v => .ok (some v)

-- models: vital/config/config_block.h:555-576 (get_value<T>(key)); `cast` is
-- config_block_get_value_cast<T>, `none` standing for a thrown bad_config_block_cast
def getValueAs {T : Type} (cast : Str → Option T) (h : Heap) (b : Nat) (key : Str) : Except Exc T :=
  match findValue h b key with
  | .error e => .error e
  | .ok none => .error (.noSuch key)
  | .ok (some v) =>
    match cast v with
    | none => .error (.badCast key v)
    | some t => .ok t

-- models: vital/config/config_block.cxx:470-476 (config_block_get_value_cast<std::string>)
def castString (v : Str) : Option Str := some v

/-- `get_value<std::string>( key )`. -/
def getValue (h : Heap) (b : Nat) (key : Str) : Except Exc Str := getValueAs castString h b key

-- models: vital/config/config_block.h:581-594 (get_value<T>(key, def)); undefined behaviour is not
-- an exception and is not caught
def getValueDef {T : Type} (cast : Str → Option T) (h : Heap) (b : Nat) (key : Str) (dflt : T) :
    Except Exc T :=
  match getValueAs cast h b key with
  | .ok t => .ok t
  | .error .ub => .error .ub
  | .error _ => .ok dflt

-- models: vital/config/config_block.cxx:226-231 (is_read_only): looks at this block only
def isReadOnly (h : Heap) (b : Nat) (key : Str) : Except Exc Bool :=
  match h[b]? with
  | none => .error .ub
  | some blk => .ok (blk.ro.contains key)

/-- The value that an exception reports for a root block: `get_value<string>( key, "" )`. -/
def currentValue (blk : Block) (key : Str) : Str :=
  match blk.store.find? key with
  | none => []
  | some v => v

-- models: vital/config/config_block.cxx:236-241 (mark_read_only): this block only
def markReadOnly (h : Heap) (b : Nat) (key : Str) : Heap × Except Exc Unit :=
  match h[b]? with
  | none => (h, .error .ub)
  | some blk => (h.set b { blk with ro := if blk.ro.contains key then blk.ro else key :: blk.ro }, .ok ())

-- models: vital/config/config_block.cxx:366-395 (i_set_value); a view calls its parent's set_value,
-- whose string version (config_block.h:748-757) is i_set_value again
def iSetValueF : Nat → Heap → Nat → Str → Str → Str → Heap × Except Exc Unit
  | 0, h, _, _, _, _ => (h, .error .ub)
  | n + 1, h, b, key, value, descr =>
    match h[b]? with
    | none => (h, .error .ub)
    | some blk =>
      match blk.parent with
      | some p => iSetValueF n h p (blk.name ++ blockSep ++ key) value descr
      | none =>
        if blk.ro.contains key then
          (h, .error (.setRO key (currentValue blk key) value))
        else
          let store' := blk.store.insert key (trim value)
          let descr' :=
            if !blk.descr.contains key || decide (0 < descr.length) then blk.descr.insert key descr
            else blk.descr
          (h.set b { blk with store := store', descr := descr' }, .ok ())

/-- `set_value( key, value, descr )` with a string value. -/
def setValue (h : Heap) := iSetValueF h.length h

-- models: vital/config/config_block.cxx:185-221 (unset_value)
def unsetValueF : Nat → Heap → Nat → Str → Heap × Except Exc Unit
  | 0, h, _, _ => (h, .error .ub)
  | n + 1, h, b, key =>
    match h[b]? with
    | none => (h, .error .ub)
    | some blk =>
      match blk.parent with
      | some p => unsetValueF n h p (blk.name ++ blockSep ++ key)
      | none =>
        if blk.ro.contains key then
          (h, .error (.unsetRO key (currentValue blk key)))
        else if !blk.store.contains key then
          (h, .error (.noSuch key))
        else if !blk.descr.contains key then
          -- m_descr_store.erase( end() )
          (h.set b { blk with store := blk.store.erase key }, .error .ub)
        else
          (h.set b { blk with store := blk.store.erase key, descr := blk.descr.erase key,
                              defs := blk.defs.erase key }, .ok ())

def unsetValue (h : Heap) := unsetValueF h.length h

/-- The loop of `merge_config` over the keys still to be merged. -/
-- models: vital/config/config_block.cxx:252-258
def mergeLoop (b c : Nat) : List Str → Heap → Heap × Except Exc Unit
  | [], h => (h, .ok ())
  | key :: keys, h =>
    match getValue h c key with
    | .error e => (h, .error e)
    | .ok val =>
      match getDescription h c key with
      | .error e => (h, .error e)
      | .ok descr =>
        match setValue h b key val descr with
        | (h', .error e) => (h', .error e)
        | (h', .ok ()) => mergeLoop b c keys h'

-- models: vital/config/config_block.cxx:246-259 (merge_config); `c` may be `b` or a view of it
def mergeConfig (h : Heap) (b c : Nat) : Heap × Except Exc Unit :=
  match availableValues h c with
  | .error e => (h, .error e)
  | .ok keys => mergeLoop b c keys h

-- models: vital/config/config_block.cxx:101-108 (empty_config)
def emptyConfig (h : Heap) (name : Str) : Heap × Except Exc Nat :=
  (h ++ [mkBlock name none], .ok h.length)

-- models: vital/config/config_block.cxx:155-160 (subblock_view)
def subblockView (h : Heap) (b : Nat) (key : Str) : Heap × Except Exc Nat :=
  match h[b]? with
  | none => (h, .error .ub)
  | some _ => (h ++ [mkBlock key (some b)], .ok h.length)

/-- The loop of `subblock`; `conf` is the new block. -/
-- models: vital/config/config_block.cxx:135-147
def subblockLoop (b conf : Nat) (name : Str) : List Str → Heap → Heap × Except Exc Unit
  | [], h => (h, .ok ())
  | key :: keys, h =>
    if doesNotBeginWith key name then subblockLoop b conf name keys h
    else
      match iGetValue h b key with
      | .error e => (h, .error e)
      | .ok v =>
        match getDescription h b key with
        | .error e => (h, .error e)
        | .ok d =>
          match setValue h conf (stripBlockName name key) v d with
          | (h', .error e) => (h', .error e)
          | (h', .ok ()) => subblockLoop b conf name keys h'

-- models: vital/config/config_block.cxx:129-150 (subblock).  When the loop throws the new block is
-- destroyed, so the caller sees the heap as it was.
def subblock (h : Heap) (b : Nat) (name : Str) : Heap × Except Exc Nat :=
  match availableValues (h ++ [mkBlock name none]) b with
  | .error e => (h, .error e)
  | .ok keys =>
    match subblockLoop b h.length name keys (h ++ [mkBlock name none]) with
    | (_, .error e) => (h, .error e)
    | (h', .ok ()) => (h', .ok h.length)

-- models: vital/config/config_block.cxx:399-404 (set_location): this block only
def setLocation (h : Heap) (b : Nat) (key : Str) (loc : Loc) : Heap × Except Exc Unit :=
  match h[b]? with
  | none => (h, .error .ub)
  | some blk => (h.set b { blk with defs := blk.defs.insert key loc }, .ok ())

-- models: vital/config/config_block.cxx:408-423 (get_location): this block only
def getLocation (h : Heap) (b : Nat) (key : Str) : Except Exc (Option Loc) :=
  match h[b]? with
  | none => .error .ub
  | some blk => .ok (blk.defs.find? key)

-- models: vital/config/config_block.cxx:119-124 (get_name)
def getName (h : Heap) (b : Nat) : Except Exc Str :=
  match h[b]? with
  | none => .error .ub
  | some blk => .ok blk.name

/-! ### Conversions -/

-- models: vital/config/config_block.cxx:429-465 (config_block_get_value_cast<bool>)
def castBool (value : Str) : Option Bool :=
  let v := value.map toLower
  if v = c!"true" ∨ v = c!"yes" ∨ v = c!"1" then some true
  else if v = c!"false" ∨ v = c!"no" ∨ v = c!"0" then some false
  else none

-- models: vital/config/config_block.h:724-733 (set_value<bool>(key, value, descr))
def boolText3 (v : Bool) : Str := if v then c!"true" else c!"false"
-- models: vital/config/config_block.h:616-637, 681-692 (set_value<bool>(key, value)):
-- `stringstream << bool` without boolalpha
def boolText2 (v : Bool) : Str := if v then c!"1" else c!"0"

/-! ### API histories -/

/-- One call of the mutating public API. -/
inductive Op where
  | emptyConfig (name : Str)
  | subblock (b : Nat) (key : Str)
  | subblockView (b : Nat) (key : Str)
  | setValue (b : Nat) (key value descr : Str)
  | unsetValue (b : Nat) (key : Str)
  | markReadOnly (b : Nat) (key : Str)
  | mergeConfig (b c : Nat)
  | setLocation (b : Nat) (key : Str) (loc : Loc)
  deriving DecidableEq, Repr

/-- State after a call (also when it throws). -/
def step (h : Heap) : Op → Heap
  | .emptyConfig n => (emptyConfig h n).1
  | .subblock b k => (subblock h b k).1
  | .subblockView b k => (subblockView h b k).1
  | .setValue b k v d => (setValue h b k v d).1
  | .unsetValue b k => (unsetValue h b k).1
  | .markReadOnly b k => (markReadOnly h b k).1
  | .mergeConfig b c => (mergeConfig h b c).1
  | .setLocation b k l => (setLocation h b k l).1

/-- State after a sequence of calls from program start. -/
def run (ops : List Op) : Heap := ops.foldl step []

/-- A state that some program reaches. -/
def Reachable (h : Heap) : Prop := ∃ ops, h = run ops

end Vital.Config
