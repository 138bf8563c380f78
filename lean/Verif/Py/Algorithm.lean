import Verif.CApi.AlgoHandlesProps
/-
  The Python class VitalAlgorithm (vital/bindings/python/vital/algo/algorithm.py, util/VitalObject.py, util/error_handle.py) on top of
  the C interface of Verif.CApi.AlgoHandles; properties C214 - C216.

  A Python object holds a ctypes pointer object; `set_config` passes its address to the C side (`byref`), which may overwrite the handle
  in it.  A shallow copy made with `from_c_pointer( a.c_pointer, shallow_copy_of = a )` holds the same pointer object, so pointer
  objects (cells) are modelled apart from the Python objects.  Strings reach the C side cut at the first NUL.  An object is collected
  when nothing refers to it any more, in particular no copy (C144).  `none` = undefined behaviour: in the C++ library, or because the
  text of an exception fills its block (c_utils.h:64-76, one byte short) with the allocator `usable`.  An object that is made and dropped
  inside a call that raises is collected at once.
-/
namespace Vital.Py.Alg
open Vital Vital.Config Vital.CApi Vital.Algo

variable {δ : Type}

/-- One statement; objects are numbered in the order of their creation. -/
inductive Op (δ : Type) where
  /-- `Type( name )` -/
  | init (c : Nat) (name : Str)
  /-- `Type.create( name, impl )` -/
  | create (c : Nat) (name impl : Str)
  /-- `Type.from_c_pointer( x.c_pointer, shallow_copy_of = x, name = name )` -/
  | copy (x : Nat) (name : Option Str)
  | name (x : Nat)
  | setName (x : Nat) (name : Str)
  | implName (x : Nat)
  | clone (x : Nat) (name : Option Str)
  /-- `cb` is the handle of the config block -/
  | getConfig (x cb : Nat)
  | setConfig (x cb : Nat)
  | checkConfig (x cb : Nat)
  | collect (x : Nat)
  /-- other code: plugins, config blocks, algorithms used from elsewhere -/
  | outside (g : Algo.St δ) (cfgs : Cache)

inductive Val where
  | none
  | str (s : Str)
  | bool (b : Bool)
  | obj (x : Nat)
  deriving DecidableEq

inductive Exn where
  /-- ValueError for an empty name -/
  | emptyName
  /-- VitalNullPointerException of `create` -/
  | nullPointer
  /-- ValueError: NULL pointer access -/
  | nullAccess
  /-- VitalBaseException with the message of the C side -/
  | vital (msg : Str)
  deriving DecidableEq

structure Obj where
  cls : Nat
  cell : Nat
  parent : Option Nat
  name : Str
  deriving DecidableEq

structure St (δ : Type) where
  c : CApi.Alg.St δ
  cells : List Nat
  objs : List (Option Obj)

def St.init : St δ := ⟨CApi.Alg.St.init, [], []⟩

abbrev Out (σ : Type) := Option (σ × Except Exn Val)

/-- The handle in the cell of an object. -/
def St.handle (s : St δ) (o : Obj) : Nat := (s.cells[o.cell]?).getD 0

/-- A new object with a new cell. -/
def St.newObj (s : St δ) (c h : Nat) (name : Str) : Out (St δ) :=
  some ({ s with cells := s.cells ++ [h], objs := s.objs ++ [some ⟨c, s.cells.length, none, name⟩] }, .ok (.obj s.objs.length))

-- models: vital/bindings/python/vital/algo/algorithm.py:180-202 (__init__); the object dropped by the exception has a NULL pointer
def init (s : St δ) (c : Nat) (name : Str) : Out (St δ) :=
  if name = [] then some (s, .error .emptyName) else s.newObj c 0 name

-- models: vital/bindings/python/vital/algo/algorithm.py:61-100 (from_c_pointer without parent) for a new handle `h`: with an empty name
-- the object is dropped, which destroys the handle (225-235, VitalObject.py:153-155)
def fromPointer (s : St δ) (c h : Nat) (name : Str) : Out (St δ) :=
  if name = [] then
    if h = 0 then some (s, .error .emptyName)
    else match CApi.Alg.destroy s.c c h with
      | none => none
      | some (s', _) => some ({ s with c := s' }, .error .emptyName)
  else s.newObj c h name

-- models: vital/bindings/python/vital/algo/algorithm.py:147-178 (create)
def create (s : St δ) (a c : Nat) (name impl : Str) : Out (St δ) :=
  match CApi.Alg.create s.c a c (cstr impl) with
  | none => none
  | some (s', .handle h) => if h = 0 then some ({ s with c := s' }, .error .nullPointer) else fromPointer { s with c := s' } c h name
  | some (s', _) => some ({ s with c := s' }, .error .nullPointer)

-- models: vital/bindings/python/vital/algo/algorithm.py:61-100 (from_c_pointer with parent)
def copy (s : St δ) (x : Nat) (o : Obj) (name : Option Str) : Out (St δ) :=
  let n := match name with
    | none => o.name
    | some n => if n = [] then o.name else n
  some ({ s with objs := s.objs ++ [some ⟨o.cls, o.cell, some x, n⟩] }, .ok (.obj s.objs.length))

-- models: vital/bindings/python/vital/algo/algorithm.py:204-223 (name, set_name)
def setName (s : St δ) (x : Nat) (o : Obj) (name : Str) : Out (St δ) :=
  if name = [] then some (s, .error .emptyName) else some ({ s with objs := s.objs.set x (some { o with name := name }) }, .ok .none)

/-- The Python string for a `char*` into this buffer. -/
def pyStr (b : List (Option Char)) : Str := cstr (b.map fun c => c.getD nul)

-- models: vital/bindings/python/vital/algo/algorithm.py:237-255 (impl_name): for a NULL result the exception of `contents` wins over the
-- one of the error handle
def implName (s : St δ) (o : Obj) : Out (St δ) :=
  if s.handle o = 0 then some (s, .ok .none)
  else match CApi.Alg.implName s.c (s.handle o) with
    | none => none
    | some (s', .str (some b)) => some ({ s with c := s' }, .ok (.str (pyStr b)))
    | some (s', _) => some ({ s with c := s' }, .error .nullAccess)

/-- The exception that the error handle raises, if its text fits. -/
-- models: vital/bindings/c/helpers/c_utils.h:64-76, 89-121; vital/bindings/python/vital/util/error_handle.py:65-83
def raise (usable : Nat → Nat) (text : Str) : Option (Except Exn Val) :=
  let msg := cstr (message (.stdException text))
  if msg.length + 1 ≤ usable msg.length then some (.error (.vital msg)) else none

/-- Leaving the `with` block: the exception of the error handle, or the value. -/
def leave (usable : Nat → Nat) (s : St δ) (t : Option Str) (v : Except Exn Val) : Out (St δ) :=
  match t with
  | none => some (s, v)
  | some w => (raise usable w).map fun e => (s, e)

-- models: vital/bindings/python/vital/algo/algorithm.py:257-271 (clone): for a handle that the C side refuses the error handle raises
def clone (usable : Nat → Nat) (dead : Str) (s : St δ) (a : Nat) (o : Obj) (name : Option Str) : Out (St δ) :=
  let n := match name with
    | none => o.name
    | some n => if n = [] then o.name else n
  match CApi.Alg.clone s.c a o.cls (s.handle o) with
  | none => none
  | some (s', .handle h) =>
    if s.handle o ≠ 0 ∧ h = 0 then
      match fromPointer { s with c := s' } o.cls 0 n with
      | some (s2, .error e) => some (s2, .error e)
      | some (_, .ok _) => leave usable { s with c := s' } (some dead) (.ok .none)
      | none => none
    else fromPointer { s with c := s' } o.cls h n
  | some _ => none

section
variable (L : Lib δ) (usable : Nat → Nat) (what : Exc → Str) (dead : Str)

/-- The text of the exception inside get_type_config, if there is one. -/
def getErr (s : CApi.Alg.St δ) (c : Nat) (name : Str) (p cb : Nat) : Option Str :=
  match CApi.Alg.object s c p with
  | .error _ => some dead
  | .ok o => match get s.cfgs cb with
    | .error _ => some dead
    | .ok k => match getNested L s.alg (L.typeName c) name k.tag o with
      | (_, .error e) => some (what e)
      | _ => none

def setErr (s : CApi.Alg.St δ) (c : Nat) (name : Str) (cb p : Nat) : Option Str :=
  match CApi.Alg.object s c p with
  | .error _ => some dead
  | .ok o => match get s.cfgs cb with
    | .error _ => some dead
    | .ok k => match setNestedCls L s.alg c name k.tag o with
      | (_, _, .error e) => some (what e)
      | _ => none

def checkErr (s : CApi.Alg.St δ) (c : Nat) (name : Str) (cb : Nat) : Option Str :=
  match get s.cfgs cb with
  | .error _ => some dead
  | .ok k => match checkNested L s.alg (L.typeName c) name k.tag with
    | (_, .error e) => some (what e)
    | _ => none

-- models: vital/bindings/python/vital/algo/algorithm.py:273-304 (get_config with a config block)
def getConfig (s : St δ) (o : Obj) (cb : Nat) : Out (St δ) :=
  match CApi.Alg.getType L s.c o.cls (cstr o.name) (s.handle o) cb with
  | none => none
  | some (s', _) => leave usable { s with c := s' } (getErr L what dead s.c o.cls (cstr o.name) (s.handle o) cb) (.ok .none)

-- models: vital/bindings/python/vital/algo/algorithm.py:306-331 (set_config): the handle in the cell is replaced
def setConfig (s : St δ) (a : Nat) (o : Obj) (cb : Nat) : Out (St δ) :=
  match CApi.Alg.setType L s.c a o.cls (cstr o.name) cb (s.handle o) with
  | none => none
  | some (s', r) => leave usable { s with c := s', cells := s.cells.set o.cell (match r with | .handle h => h | _ => s.handle o) }
      (setErr L what dead s.c o.cls (cstr o.name) cb (s.handle o)) (.ok .none)

-- models: vital/bindings/python/vital/algo/algorithm.py:333-352 (check_config)
def checkConfig (s : St δ) (o : Obj) (cb : Nat) : Out (St δ) :=
  match CApi.Alg.checkType L s.c o.cls (cstr o.name) cb with
  | none => none
  | some (s', r) => leave usable { s with c := s' } (checkErr L what dead s.c o.cls (cstr o.name) cb) (.ok (match r with | .bool b => .bool b | _ => .none))

-- models: vital/bindings/python/vital/util/VitalObject.py:153-155 (__del__), algorithm.py:225-235 (_destroy)
def collect (s : St δ) (x : Nat) (o : Obj) : Out (St δ) :=
  if o.parent = none ∧ s.handle o ≠ 0 then
    match CApi.Alg.destroy s.c o.cls (s.handle o) with
    | none => none
    | some (s', _) => some ({ s with c := s', objs := s.objs.set x none }, .ok .none)
  else some ({ s with objs := s.objs.set x none }, .ok .none)

/-- The object, if it is there. -/
def at? {α : Type} (objs : List (Option α)) (x : Nat) : Option α := (objs[x]?).getD none

/-- One statement; `a` is the address of the algorithm instance it creates, if any. -/
def step (s : St δ) (a : Nat) : Op δ → Out (St δ)
  | .init c n => init s c n
  | .create c n i => create s a c n i
  | .outside g k => some ({ s with c := { s.c with alg := g, cfgs := k } }, .ok .none)
  | .copy x n => (at? s.objs x).bind fun o => copy s x o n
  | .name x => (at? s.objs x).bind fun o => some (s, .ok (.str o.name))
  | .setName x n => (at? s.objs x).bind fun o => setName s x o n
  | .implName x => (at? s.objs x).bind fun o => implName s o
  | .clone x n => (at? s.objs x).bind fun o => clone usable dead s a o n
  | .getConfig x cb => (at? s.objs x).bind fun o => getConfig L usable what dead s o cb
  | .setConfig x cb => (at? s.objs x).bind fun o => setConfig L usable what dead s a o cb
  | .checkConfig x cb => (at? s.objs x).bind fun o => checkConfig L usable what dead s o cb
  | .collect x => (at? s.objs x).bind fun o => collect s x o

def run : St δ → List (Nat × Op δ) → Option (St δ × List (Except Exn Val))
  | s, [] => some (s, [])
  | s, (a, o) :: l => (step L usable what dead s a o).bind fun r => (run r.1 l).map fun q => (q.1, r.2 :: q.2)
end

/-! ### Specification: each original is a C++ variable of type shared_ptr; a copy is another name for the variable -/

/-- The C++ world, the variables (the number of the algorithm object each points to), and the Python objects. -/
structure Prog (δ : Type) where
  alg : Algo.St δ
  cfgs : Cache
  vars : List (Option Nat)
  objs : List (Option Obj)

def Prog.init : Prog δ := ⟨Algo.St.init, CApi.empty, [], []⟩

/-- The algorithm that an object stands for. -/
def Prog.target (p : Prog δ) (o : Obj) : Option Nat := (p.vars[o.cell]?).getD none

def Prog.block (p : Prog δ) (cb : Nat) : Option Nat :=
  match get p.cfgs cb with
  | .ok k => some k.tag
  | .error _ => none

/-- A new object with a new variable. -/
def Prog.newObj (p : Prog δ) (c : Nat) (v : Option Nat) (name : Str) : Out (Prog δ) :=
  if name = [] then some (p, .error .emptyName)
  else some ({ p with vars := p.vars ++ [v], objs := p.objs ++ [some ⟨c, p.vars.length, none, name⟩] }, .ok (.obj p.objs.length))

/-- The given name unless it is missing or empty. -/
def nameOr (name : Option Str) (old : Str) : Str :=
  match name with
  | none => old
  | some n => if n = [] then old else n

/-- The exception with the text that an error of the C side gives; undefined if the text leaves no room for the NUL in its block. -/
def docRaise (usable : Nat → Nat) (text : Str) : Option (Except Exn Val) :=
  if usable (cstr (message (.stdException text))).length ≤ (cstr (message (.stdException text))).length then none
  else some (.error (.vital (cstr (message (.stdException text)))))

section
variable (L : Lib δ) (usable : Nat → Nat) (what : Exc → Str) (dead : Str)

/-- The result of a C++ call made by a statement: an exception comes out as VitalBaseException. -/
def outcome {T : Type} (p : Prog δ) (x : Algo.St δ × Except Exc T) (ok : T → Prog δ → Prog δ × Val) : Out (Prog δ) :=
  match x with
  | (_, .error .ub) => none
  | (g, .error e) => (docRaise usable (what e)).map fun r => ({ p with alg := g }, r)
  | (g, .ok v) => some ((ok v { p with alg := g }).1, .ok (ok v { p with alg := g }).2)

/-- The documented effect and result of a statement on object `o` (number `x`). -/
def docOn (p : Prog δ) (x : Nat) (o : Obj) : Op δ → Out (Prog δ)
  | .copy _ n => some ({ p with objs := p.objs ++ [some ⟨o.cls, o.cell, some x, nameOr n o.name⟩] }, .ok (.obj p.objs.length))
  | .name _ => some (p, .ok (.str o.name))
  | .setName _ n => if n = [] then some (p, .error .emptyName) else some ({ p with objs := p.objs.set x (some { o with name := n }) }, .ok .none)
  | .implName _ => match p.target o with
    | none => some (p, .ok .none)
    | some m => (p.alg.objs[m]?).map fun i => (p, .ok (.str (cstr i.impl)))
  | .clone _ n => match p.target o with
    | none => p.newObj o.cls none (nameOr n o.name)
    | some m => match cloneObj p.alg m with
      | (_, .error _) => none
      | (g, .ok k) => ({ p with alg := g } : Prog δ).newObj o.cls (some k) (nameOr n o.name)
  | .getConfig _ cb => match p.block cb with
    | none => (docRaise usable dead).map fun r => (p, r)
    | some k => outcome usable what p (getNested L p.alg (L.typeName o.cls) (cstr o.name) k (p.target o)) (fun _ p' => (p', .none))
  | .setConfig _ cb => match p.block cb with
    | none => (docRaise usable dead).map fun r => (p, r)
    | some k => match setNestedCls L p.alg o.cls (cstr o.name) k (p.target o) with
      | (g, q, r) => outcome usable what p (g, r) (fun _ p' => (match q with
          | none => p'
          | some n => { p' with vars := p'.vars.set o.cell (some n) }, .none))
  | .checkConfig _ cb => match p.block cb with
    | none => (docRaise usable dead).map fun r => (p, r)
    | some k => outcome usable what p (checkNested L p.alg (L.typeName o.cls) (cstr o.name) k) (fun b p' => (p', .bool b))
  | .collect _ => some ({ p with objs := p.objs.set x none }, .ok .none)
  | _ => none

/-- The object a statement is about. -/
def Op.on : Op δ → Option Nat
  | .init _ _ | .create _ _ _ | .outside _ _ => none
  | .copy x _ | .name x | .setName x _ | .implName x | .clone x _ | .getConfig x _ | .setConfig x _ | .checkConfig x _ | .collect x => some x

/-- The documented effect and result of a statement. -/
def doc (p : Prog δ) (op : Op δ) : Out (Prog δ) :=
  match op.on with
  | some x => (at? p.objs x).bind fun o => docOn L usable what dead p x o op
  | none => match op with
    | .init c n => p.newObj c none n
    | .create c n i => match createCls p.alg c (cstr i) with
      | (_, .error .ub) => none
      | (g, .ok (some m)) => ({ p with alg := g } : Prog δ).newObj c (some m) n
      | (g, _) => some ({ p with alg := g }, .error .nullPointer)
    | .outside g k => some ({ p with alg := g, cfgs := k }, .ok .none)
    | _ => none

def docAll : Prog δ → List (Nat × Op δ) → Option (Prog δ × List (Except Exn Val))
  | p, [] => some (p, [])
  | p, (_, o) :: l => (doc L usable what dead p o).bind fun r => (docAll r.1 l).map fun q => (q.1, r.2 :: q.2)

/-- The statement uses an object that is there; an object is collected only when it has no copies; other code is fair. -/
def Allowed (p : Prog δ) (op : Op δ) : Prop :=
  (∀ x, op.on = some x → (at? p.objs x).isSome) ∧
  (∀ x, op = .collect x → ∀ (y : Nat) (o : Obj), at? p.objs y = some o → o.parent ≠ some x) ∧
  (∀ g k, op = .outside g k → CApi.Alg.Fair L p.alg g)

/-- The allocator does not hand out the address of an algorithm that some object still has. -/
def Fresh (s : St δ) (a : Nat) : Prop := a ≠ 0 ∧ ∀ (x : Nat) (o : Obj), at? s.objs x = some o → s.handle o ≠ a

def Legal : St δ → Prog δ → List (Nat × Op δ) → Prop
  | _, _, [] => True
  | s, p, (a, o) :: l => Allowed L p o ∧ Fresh s a ∧ ∀ s' p' v w, step L usable what dead s a o = some (s', v) → doc L usable what dead p o = some (p', w) → Legal s' p' l
end

end Vital.Py.Alg
