import Verif.SysInfo.Model
import Verif.Basic.Stream
/-
  Specification for the queries about the machine: what the files in /proc say.
-/
namespace Vital.SysInfo
open Vital Vital.Stream

/-- A line `key<pad>:value` of /proc/cpuinfo. -/
structure Field where
  key : Str
  pad : Str
  value : Str
  deriving DecidableEq

def Field.text (f : Field) : Str := f.key ++ f.pad ++ ':' :: f.value ++ ['\n']

/-- /proc/cpuinfo: fields and empty lines. -/
def text : List (Option Field) → Str
  | [] => []
  | none :: l => '\n' :: text l
  | some f :: l => f.text ++ text l

def fields (l : List (Option Field)) : List Field := l.filterMap id

/-- The last character, if any, is not a blank. -/
def NoTrail (s : Str) : Prop := ∀ c, s.getLast? = some c → blank c = false

/-- The format: keys have no colon and do not end in a blank; blanks up to the colon; the value is the rest of the line. -/
def Field.Ok (f : Field) : Prop := ':' ∉ f.key ∧ '\n' ∉ f.key ∧ NoTrail f.key ∧ (∀ c ∈ f.pad, blank c = true) ∧ '\n' ∉ f.value

/-- A word that can be a key. -/
def Word (w : Str) : Prop := w ≠ [] ∧ ':' ∉ w ∧ '\n' ∉ w ∧ NoTrail w

/-- The value of the first field with this key: what follows the colon and one blank; empty if there is no such field. -/
def valueOf (l : List (Option Field)) (w : Str) : Str :=
  match (fields l).find? (fun f => f.key = w) with
  | some f => f.value.drop 1
  | none => []

/-- Full property C218: a key is looked up as that. -/
def C218_statement : Prop := ∀ (l : List (Option Field)) (w : Str), (∀ f ∈ fields l, f.Ok) → Word w → (extract w (text l)).2 = valueOf l w

/-- The fields for which this works: the value does not contain the word, no other key ends in it, and its own value is not missing
    altogether. -/
def Field.Clear (w : Str) (f : Field) : Prop := f.Ok ∧ ¬ w <:+: f.value ∧ (w <:+ f.key → f.key = w) ∧ (f.key = w → f.value ≠ [])

/-- All fields are like that. -/
def Clear (l : List (Option Field)) (w : Str) : Prop := ∀ f ∈ fields l, f.Clear w

/-- The fields up to the first one with this key. -/
def upTo (w : Str) : List Field → List Field
  | [] => []
  | f :: l => f :: (if f.key = w then [] else upTo w l)

/-- Those fields are like that. -/
def ClearTo (l : List (Option Field)) (w : Str) : Prop := ∀ f ∈ upTo w (fields l), f.Clear w

/-- Number of fields with this key. -/
def numOf (l : List (Option Field)) (w : Str) : Nat := ((fields l).filter (fun f => f.key = w)).length

/-- The file has its processors as Linux prints them: `processor<tab>` starts the lines for them and is nowhere else. -/
def Procs (l : List (Option Field)) : Prop :=
  ∀ f ∈ fields l, f.Ok ∧ ¬ (c!"processor\t") <:+: f.value ∧ (f.key = c!"processor" → ∃ p, f.pad = '\t' :: p) ∧
    (f.key ≠ c!"processor" → ¬ (c!"processor\t") <:+: f.key ++ f.pad)

/-- The file as Linux writes it: an empty line at the end. -/
def cpuFile (l : List (Option Field)) : Str := text (l ++ [none])

/-- The words that the physical count looks for. -/
def physWords : List Str := [c!"physical id", c!"cpu cores", c!"ncpus active"]

/-- A machine with packages numbered from 0 and `cores` cores in each. -/
structure Cores (l : List (Option Field)) (packages cores : Nat) : Prop where
  clear : ∀ w ∈ physWords, Clear l w
  pos : 0 < packages ∧ 0 < cores ∧ packages * cores < 2 ^ 31
  below : ∀ f ∈ fields l, f.key = c!"physical id" → ∃ i, i < packages ∧ f.value = ' ' :: natStr i
  last : ∃ f ∈ fields l, f.key = c!"physical id" ∧ f.value = ' ' :: natStr (packages - 1)
  each : valueOf l (c!"cpu cores") = natStr cores

/-- Full property C220: the number of physical CPUs is that of all cores. -/
def C220_statement : Prop := ∀ (l : List (Option Field)) (packages cores : Nat), Cores l packages cores →
  ∃ c, cpuInfo (some (cpuFile l)) = .ok c ∧ c.physical = packages * cores

/-! ### /proc/meminfo -/

/-- A line `name:<blanks><n><rest>`. -/
structure Entry where
  name : Str
  gap : Str
  n : Nat
  rest : Str

def Entry.text (e : Entry) : Str := e.name ++ ':' :: e.gap ++ natStr e.n ++ e.rest

/-- The format: no colon in the name, one line of less than 1023 characters, a number that fits. -/
def Entry.Ok (e : Entry) : Prop :=
  ':' ∉ e.name ∧ '\n' ∉ e.name ∧ (∀ c ∈ e.gap, blank c = true) ∧ e.n < 2 ^ 64 ∧ '\n' ∉ e.rest ∧ (∀ c, e.rest.head? = some c → isDigit c = false) ∧ e.text.length < 1023

def memFile : List Entry → Str
  | [] => []
  | e :: l => e.text ++ '\n' :: memFile l

/-- The number in the first line with this name. -/
def amount (l : List Entry) (name : Str) : Option Nat := (l.find? (fun e => e.name = name)).map (·.n)

/-- The file says these amounts (in KiB). -/
structure Amounts (l : List Entry) (t f b c st sf : Nat) : Prop where
  ok : ∀ e ∈ l, e.Ok
  total : amount l (c!"MemTotal") = some t
  free : amount l (c!"MemFree") = some f
  buffers : amount l (c!"Buffers") = some b
  cached : amount l (c!"Cached") = some c
  swapTotal : amount l (c!"SwapTotal") = some st
  swapFree : amount l (c!"SwapFree") = some sf
  fits : f + b + c < 2 ^ 64

/-- The release of a kernel. -/
def release (major minor : Nat) (rest : Str) : Str := natStr major ++ '.' :: natStr minor ++ rest

/-- Full property C222: for every kernel since 2.6 the memory is reported in MiB. -/
def C222_statement : Prop := ∀ (u : Uname) (major minor : Nat) (rest : Str) (l : List Entry) (t f b c st sf : Nat),
  u.release = release major minor rest → (2 < major ∨ major = 2 ∧ 6 ≤ minor) → (∀ x, rest.head? = some x → isDigit x = false) →
  Amounts l t f b c st sf → memInfo (some u) (some (memFile l)) = ⟨t / 1024, (f + b + c) / 1024, st / 1024, sf / 1024⟩

/-- The entries of one line of the old format. -/
def numbers : List (Str × Nat) → Str
  | [] => []
  | (gap, n) :: l => gap ++ natStr n ++ numbers l

/-- The old format: a header, a line `Mem:` and a line `Swap:`. -/
def oldFile (header : Str) (mem swap : List (Str × Nat)) (rest : Str) : Str :=
  header ++ '\n' :: (c!"Mem:") ++ numbers mem ++ '\n' :: (c!"Swap:") ++ numbers swap ++ '\n' :: rest

/-- Gaps are blanks, at least one, and the numbers fit. -/
def Spaced (l : List (Str × Nat)) : Prop := ∀ p ∈ l, p.1 ≠ [] ∧ (∀ c ∈ p.1, blank c = true) ∧ p.2 < 2 ^ 64

/-! ### Features -/

def featureWords : List Str := [c!"stepping", c!"CPU revision", c!"flags"]

/-- The flags of the processor are these words. -/
structure Flags (l : List (Option Field)) (ws : List Str) : Prop where
  clear : ∀ w ∈ featureWords, ClearTo l w
  value : valueOf l (c!"flags") = joinWith [' '] ws
  words : ∀ w ∈ ws, ' ' ∉ w

/-- Full property C221: a feature is reported exactly if it is among the flags. -/
def C221_statement : Prop := ∀ (l : List (Option Field)) (ws : List Str) (c : Cpu) (name : Str),
  Flags l ws → cpuInfo (some (cpuFile l)) = .ok c → name ≠ [] → ' ' ∉ name → (hasFeature c name = true ↔ name ∈ ws)

/-! ### $SYSENV -/

/-- The first name of an address that contains the host name and is longer; the host name if there is none. -/
def IsDomain (host : Str) (names : List Str) (d : Str) : Prop :=
  (∃ a b, names = a ++ d :: b ∧ (host <:+: d ∧ host.length < d.length) ∧ ∀ n ∈ a, ¬ (host <:+: n ∧ host.length < n.length)) ∨
  (d = host ∧ ∀ n ∈ names, ¬ (host <:+: n ∧ host.length < n.length))

/-- What a machine says about itself. -/
structure Described (m : Machine) (l : List (Option Field)) (e : List Entry) (u : Uname) (host : Str) (names : List (Option Str))
    (t f b c st sf : Nat) : Prop where
  cpu : m.cpuinfo = some (cpuFile l)
  procs : Procs l
  mem : m.meminfo = some (memFile e)
  amounts : Amounts e t f b c st sf
  os : m.uname = some u
  kernel : ∃ major minor rest, u.release = release major minor rest ∧ ((3 ≤ major ∧ major ≤ 9) ∨ (major = 2 ∧ 6 ≤ minor ∧ minor ≤ 9))
  hostname : m.hostname = some host
  ifaces : m.ifaces = some names

/-- The names and their values. -/
def table (m : Machine) (procs t a st sf : Nat) (u : Uname) (domain : Str) : List (Str × Str) :=
  [ (c!"cwd", m.cwd),
    (c!"numproc", natStr procs),
    (c!"totalphysicalmemory", natStr (t / 1024)),
    (c!"availablephysicalmemory", natStr (a / 1024)),
    (c!"totalvirtualmemory", natStr (st / 1024)),
    (c!"availablevirtualmemory", natStr (sf / 1024)),
    (c!"hostname", u.nodename),
    (c!"domainname", domain),
    (c!"osname", u.sysname),
    (c!"osplatform", u.machine),
    (c!"osversion", u.version),
    (c!"osdescription", u.sysname ++ ' ' :: u.release ++ ' ' :: u.version),
    (c!"is64bits", if m.ptrSize = 8 then c!"TRUE" else c!"FALSE"),
    (c!"islinux", c!"TRUE"),
    (c!"iswindows", c!"FALSE"),
    (c!"isapple", c!"FALSE") ]

end Vital.SysInfo
