import Verif.Basic.Str
/-
  Environment variables: vital/kwiversys/SystemTools.cxx GetEnv, PutEnv, UnPutEnv with every variant that the preprocessor may choose;
  properties C231 - C234.

  `environ` is the list of its strings.  getenv, setenv, unsetenv and putenv are those of glibc.
-/
namespace Vital.Sys.Envr
open Vital

abbrev Environ := List Str

def nul : Char := Char.ofNat 0

/-- What C code sees of a string: the part before the first NUL. -/
def cstr (s : Str) : Str := s.takeWhile (fun c => c != nul)

/-! ### The C library -/

/-- An entry of this name. -/
def isEntry (n e : Str) : Bool := (n ++ ['=']).isPrefixOf e

def getenv (env : Environ) (n : Str) : Option Str :=
  if n = [] then none else (env.find? (isEntry n)).map (fun e => e.drop (n.length + 1))

/-- __add_to_environ: replace the first entry of this name, or add one at the end. -/
def addTo : Environ → Str → Str → Environ
  | [], _, e => [e]
  | x :: env, n, e => if isEntry n x = true then e :: env else x :: addTo env n e

def setenv (env : Environ) (n v : Str) : Environ × Bool :=
  if n = [] ∨ '=' ∈ n then (env, false) else (addTo env n (n ++ '=' :: v), true)

def unsetenv (env : Environ) (n : Str) : Environ :=
  if n = [] ∨ '=' ∈ n then env else env.filter (fun e => !isEntry n e)

/-- putenv of a string without '=' removes the name and always succeeds. -/
def putenvName (env : Environ) (n : Str) : Environ := unsetenv env n

/-! ### The code -/

-- models: vital/kwiversys/SystemTools.cxx:498-502 (`env.substr(0, pos)` with pos = env.find('='), or all of it)
def keyOf (s : Str) : Str := s.takeWhile (fun c => c != '=')

-- models: vital/kwiversys/SystemTools.cxx:496-510 (kwsysUnPutEnv with unsetenv; its result is always 0)
def unPutUnset (env : Environ) (s : Str) : Environ :=
  if '=' ∈ s then unsetenv env (cstr (keyOf s)) else unsetenv env (cstr s)

-- models: vital/kwiversys/SystemTools.cxx:514-556 (kwsysUnPutEnv with putenv("A"); EINVAL is not an error).  The buffer holds the first
-- `len` characters up to a NUL
def unPutName (env : Environ) (s : Str) : Environ :=
  let len := if '=' ∈ s then (keyOf s).length else s.length
  putenvName env (cstr (s.take len))

/-- `strncmp(a, b, n) == 0` for C strings that end at the end of the list. -/
def strncmpEq : Str → Str → Nat → Bool
  | _, _, 0 => true
  | [], [], _ => true
  | a :: s, b :: t, n + 1 => a == b && strncmpEq s t n
  | _, _, _ => false

-- models: vital/kwiversys/SystemTools.cxx:560-583 (kwsysUnPutEnv on environ itself)
def unPutDirect (env : Environ) (s : Str) : Environ :=
  let len := if '=' ∈ s then (keyOf s).length else s.length
  env.filter (fun e => !(decide (e.length > len) && (e[len]? == some '=') && strncmpEq (cstr s) e len))

-- models: vital/kwiversys/SystemTools.cxx:592-604 (PutEnv with setenv)
def putEnv (env : Environ) (s : Str) : Environ × Bool :=
  if '=' ∈ s then setenv env (cstr (keyOf s)) (cstr (s.drop ((keyOf s).length + 1))) else (unPutUnset env s, true)

-- models: vital/kwiversys/SystemTools.cxx:606-609 (UnPutEnv with setenv)
def unPutEnv (env : Environ) (s : Str) : Environ × Bool := (unPutUnset env s, true)

-- models: vital/kwiversys/SystemTools.cxx:456-464 (GetEnv)
def getEnv (env : Environ) (key : Str) : Option Str := getenv env (cstr key)

-- models: vital/kwiversys/SystemTools.cxx:466-483 (GetEnv with a result): the answer and the new value of the variable passed in
def getEnvInto (env : Environ) (key result : Str) : Bool × Str := match getEnv env key with
  | some v => (true, v)
  | none => (false, result)

inductive Op where
  | put (s : Str)
  | unput (s : Str)

def step (env : Environ) : Op → Environ
  | .put s => (putEnv env s).1
  | .unput s => (unPutEnv env s).1

def run (env : Environ) (ops : List Op) : Environ := ops.foldl step env

-- models: vital/kwiversys/SystemTools.cxx:625-641 (kwsysEnvCompare; strings without NUL)
def less (l r : Str) : Bool :=
  let llen := (keyOf l).length
  let rlen := (keyOf r).length
  if llen = rlen then decide (l.take llen < r.take llen) else decide (l < r)

/-! ### The variant without setenv: blocks of memory -/

/-- An entry of environ: its text and, if it points to memory that this code allocated, the number of the block. -/
structure Slot where
  block : Option Nat
  text : Str

/-- environ, the set of pointers that is kept (with their texts), the blocks that were freed and the number of the next block. -/
structure Mem where
  environ : List Slot
  kept : List (Nat × Str)
  freed : List Nat
  next : Nat

/-- putenv puts the pointer itself into environ; glibc does not check for an empty name. -/
def addSlot : List Slot → Str → Slot → List Slot
  | [], _, x => [x]
  | y :: env, n, x => if isEntry n y.text = true then x :: env else y :: addSlot env n x

def unsetSlots (env : List Slot) (n : Str) : List Slot :=
  if n = [] ∨ '=' ∈ n then env else env.filter (fun x => !isEntry n x.text)

def putenvSlot (env : List Slot) (x : Slot) : List Slot :=
  if '=' ∈ x.text then addSlot env (keyOf x.text) x else unsetSlots env x.text

/-- What a lookup of `s` in the set may find: nothing or an element that the comparison calls equal. -/
def Found (kept : List (Nat × Str)) (s : Str) : Option (Nat × Str) → Prop
  | none => True
  | some x => x ∈ kept ∧ less x.2 s = false ∧ less s x.2 = false

def freeOld (freed : List Nat) : Option (Nat × Str) → List Nat
  | none => freed
  | some x => x.1 :: freed

def without (kept : List (Nat × Str)) : Option (Nat × Str) → List (Nat × Str)
  | none => kept
  | some x => kept.filter (fun y => y.1 != x.1)

/-- One call; strings without NUL. -/
inductive Call : Mem → Op → Mem → Prop where
  -- models: vital/kwiversys/SystemTools.cxx:662-681 (Release, Put): whether insert finds a place is left open
  | put {m : Mem} {s : Str} {old : Option (Nat × Str)} {kept' : List (Nat × Str)} : Found m.kept s old →
      (kept' = (m.next, s) :: without m.kept old ∨ kept' = without m.kept old) →
      Call m (.put s) { environ := putenvSlot m.environ ⟨some m.next, s⟩, kept := kept', freed := freeOld m.freed old, next := m.next + 1 }
  -- models: vital/kwiversys/SystemTools.cxx:662-672, 682-687 (Release, UnPut)
  | unput {m : Mem} {s : Str} {old : Option (Nat × Str)} : Found m.kept s old →
      Call m (.unput s) { m with environ := unsetSlots m.environ (keyOf s), kept := without m.kept old, freed := freeOld m.freed old }

-- models: vital/kwiversys/SystemTools.cxx:653-660 (~kwsysEnv)
def atExit (m : Mem) : List (Nat × Str) → Mem
  | [] => m
  | x :: l => atExit { m with environ := unsetSlots m.environ (keyOf x.2), freed := x.1 :: m.freed } l

inductive Calls : Mem → List Op → Mem → Prop where
  | nil {m : Mem} : Calls m [] m
  | cons {m m1 m2 : Mem} {o : Op} {ops : List Op} : Call m o m1 → Calls m1 ops m2 → Calls m (o :: ops) m2

/-! ### Specification -/

/-- A text for PutEnv or UnPutEnv speaks of this name: it is the name, or the name, '=' and a value. -/
def SpeaksOf (s n : Str) : Prop := s = n ∨ ∃ v, s = n ++ '=' :: v

def Op.text : Op → Str
  | .put s => s
  | .unput s => s

/-- A name of an environment variable. -/
def IsName (n : Str) : Prop := n ≠ [] ∧ '=' ∉ n ∧ nul ∉ n

/-- Full property C231: GetEnv gives what the last call for this name left, or what was there before. -/
def C231_statement : Prop := ∀ (env : Environ) (before after : List Op) (n : Str), IsName n → (∀ o ∈ before ++ after, nul ∉ o.text) →
  (∀ o ∈ after, ¬ SpeaksOf o.text n) →
  (getEnv (run env after) n = getEnv env n) ∧
  (∀ v, nul ∉ v → getEnv (run env (before ++ .put (n ++ '=' :: v) :: after)) n = some v ∧ (putEnv (run env before) (n ++ '=' :: v)).2 = true) ∧
  (∀ o, (o = .put n ∨ ∃ s, SpeaksOf s n ∧ nul ∉ s ∧ o = .unput s) → getEnv (run env (before ++ o :: after)) n = none)

/-- Full property C232: the three ways to remove a variable do the same. -/
def C232_statement : Prop := ∀ (env : Environ) (s : Str), (∀ e ∈ env, nul ∉ e) → unPutName env s = unPutUnset env s ∧ unPutDirect env s = unPutUnset env s

/-- What std::set asks of its comparison. -/
def StrictWeak (P : Str → Prop) (lt : Str → Str → Bool) : Prop :=
  (∀ a, P a → lt a a = false) ∧ (∀ a b c, P a → P b → P c → lt a b = true → lt b c = true → lt a c = true) ∧
  (∀ a b c, P a → P b → P c → lt a b = false → lt b a = false → lt b c = false → lt c b = false → lt a c = false ∧ lt c a = false)

/-- Full property C233: the comparison of the set is a strict weak order on the texts that PutEnv takes. -/
def C233_statement : Prop := StrictWeak (fun s => nul ∉ s) less

/-- No entry of environ points to a freed block, and no block was freed twice. -/
def Safe (m : Mem) : Prop := (∀ x ∈ m.environ, ∀ b, x.block = some b → b ∉ m.freed) ∧ m.freed.Nodup

/-- Full property C234: environ never points to freed memory, also after the end of the program's static objects. -/
def C234_statement : Prop := ∀ (env : List Str) (ops : List Op) (m : Mem), (∀ o ∈ ops, nul ∉ o.text) →
  Calls { environ := env.map (Slot.mk none), kept := [], freed := [], next := 0 } ops m → Safe m ∧ Safe (atExit m m.kept)

end Vital.Sys.Envr
