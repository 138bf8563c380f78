import Verif.Basic.Decimal
/-
  Queries about the machine and the token type $SYSENV{...}: vital/kwiversys/SystemInformation.cxx (Linux branches) and
  vital/config/token_type_sysenv.cxx; properties C217 - C222.

  A position in the text of /proc/cpuinfo is represented by the rest of the text from there on.  Files contain no NUL bytes.
  `atoi` and `sscanf( "%lu" )` are those of glibc: strtol / strtoul saturate, and `atoi` keeps the low 32 bits.
-/
namespace Vital.SysInfo
open Vital

/-- The text before the first occurrence of `w`, and from it on (`find`). -/
def split (w : Str) : Str → Option (Str × Str)
  | [] => if w = [] then some ([], []) else none
  | c :: s => if startsWith (c :: s) w then some ([], c :: s) else (split w s).map fun r => (c :: r.1, r.2)

/-- Blank inside a line. -/
def blank (c : Char) : Bool := c == ' ' || c == '\t'

/-- The position of the key (`none` = npos) and the value; the outer `none` = out of fuel. -/
-- models: vital/kwiversys/SystemInformation.cxx:3148-3173 (ExtractValueFromCpuInfoFile): the length pos2-pos-2 is unsigned, so that it is
-- the rest of the text when the colon is the last character of its line
def extractF (w : Str) : Nat → Str → Option (Option Str × Str)
  | 0, _ => none
  | f + 1, s => match split w s with
    | none => some (none, [])
    | some (_, m) => match split [':'] m with
      | none => some (none, [])
      | some (a, c) => match split ['\n'] c with
        | none => some (none, [])
        | some (v, e) =>
          if (a.drop w.length).all blank then some (some m, if v.length = 1 then c.drop 2 else (c.drop 2).take (v.length - 2))
          else extractF w f e

def extract (w s : Str) : Option Str × Str := (extractF w (s.length + 1) s).getD (none, [])

/-- `strtol` with base 10, saturating. -/
def strtol (s : Str) : Int :=
  let (neg, ds) := splitSign (ltrim s)
  let n : Int := digitsVal (ds.takeWhile isDigit)
  if neg then max (-n) (-(2 ^ 63)) else min n (2 ^ 63 - 1)

/-- The int with the same low 32 bits. -/
def toInt32 (n : Int) : Int := (n + 2 ^ 31) % 2 ^ 32 - 2 ^ 31

-- models: atoi of glibc
def atoi (s : Str) : Int := toInt32 (strtol s)

/-- The text that is searched: the loop reads the end of file as one more character, and two characters are cut off.  `none` = resize
    throws std::length_error. -/
-- models: vital/kwiversys/SystemInformation.cxx:3189-3196
def buffer (file : Str) : Option Str := if file.length + 1 < 2 then none else some ((file ++ [Char.ofNat 255]).take (file.length + 1 - 2))

/-- Number of occurrences, as the loop counts them. -/
-- models: vital/kwiversys/SystemInformation.cxx:3197-3204
def countF (w : Str) : Nat → Str → Nat
  | 0, _ => 0
  | f + 1, s => match split w s with
    | none => 0
    | some (_, m) => countF w f (m.drop 1) + 1

def count (w s : Str) : Nat := countF w (s.length + 1) s

/-- The largest physical id. -/
-- models: vital/kwiversys/SystemInformation.cxx:3207-3220
def maxIdF : Nat → Str → Int → Int
  | 0, _, i => i
  | f + 1, s, i => match extract (c!"physical id") s with
    | (none, _) => i
    | (some m, v) => maxIdF f (m.drop 1) (if atoi v > i then atoi v else i)

structure Cpu where
  logical : Nat
  physical : Nat
  perPhysical : Nat
  flags : Option Str
  deriving DecidableEq

inductive Fail where
  /-- std::length_error -/
  | length
  /-- overflow of int -/
  | overflow
  deriving DecidableEq

/-- The unsigned int for an int. -/
def toUnsigned (n : Int) : Nat := (n % 2 ^ 32).toNat

/-- The number of physical CPUs before the final correction. -/
-- models: vital/kwiversys/SystemInformation.cxx:3221-3238
def rawPhysical (b : Str) : Except Fail Nat :=
  let maxId := maxIdF (b.length + 1) b (-1)
  let cores := atoi (extract (c!"cpu cores") b).2
  if maxId > 0 then
    if maxId + 1 < 2 ^ 31 ∧ -(2 ^ 31) ≤ cores * (maxId + 1) ∧ cores * (maxId + 1) < 2 ^ 31 then .ok (toUnsigned (cores * (maxId + 1))) else .error .overflow
  else .ok (toUnsigned (atoi (extract (c!"ncpus active") b).2))

/-- The flags in which features are looked up (`none` = none is). -/
-- models: vital/kwiversys/SystemInformation.cxx:3311-3317, 3347-3352
def flagText (b : Str) : Option Str :=
  let r1 := (extract (c!"stepping") b).2
  let rev := if r1 = [] then (extract (c!"CPU revision") b).2 else r1
  if rev = [] then none else some (' ' :: (extract (c!"flags") b).2 ++ [' '])

-- models: vital/kwiversys/SystemInformation.cxx:3176-3393 (RetreiveInformationFromCpuInfoFile) without speed, chip and cache; the file is
-- `none` when it cannot be opened
def cpuInfo (file : Option Str) : Except Fail Cpu :=
  match file with
  | none => .ok ⟨0, 0, 0, none⟩
  | some f => match buffer f with
    | none => .error .length
    | some b => match rawPhysical b with
      | .error e => .error e
      | .ok p =>
        let physical := if p ≤ 0 then 1 else p
        let logical := count (c!"processor\t") b
        .ok ⟨logical, physical, logical / physical, flagText b⟩

/-- One of the features taken from the flags. -/
-- models: vital/kwiversys/SystemInformation.cxx:3353-3392 (for the names that occur there)
def hasFeature (c : Cpu) (name : Str) : Bool :=
  match c.flags with
  | none => false
  | some t => (split (' ' :: name ++ [' ']) t).isSome

/-! ### Memory -/

/-- Pieces that fgets with a buffer of `n + 1` characters returns. -/
def pieces (n : Nat) : Nat → Str → Str → List Str
  | _, acc, [] => if acc = [] then [] else [acc]
  | k, acc, c :: s => if c = '\n' ∨ k + 1 ≥ n then (acc ++ [c]) :: pieces n 0 [] s else pieces n (k + 1) (acc ++ [c]) s

/-- `%lu`: skips blanks, an optional sign, digits; the value and the rest. -/
def scanU (s : Str) : Option (Nat × Str) :=
  let (neg, ds) := splitSign (ltrim s)
  let d := ds.takeWhile isDigit
  if d = [] then none
  else
    let n := min (digitsVal d) (2 ^ 64 - 1)
    some (if neg then (if digitsVal d > 2 ^ 64 - 1 then 2 ^ 64 - 1 else (2 ^ 64 - n) % 2 ^ 64) else n, ds.dropWhile isDigit)

/-- `sscanf( line, "<name>%lu kB", &v ) == 1` -/
def scanField (name line : Str) : Option Nat := if startsWith line name then (scanU (line.drop name.length)).map (·.1) else none

structure Mem where
  totalPhysical : Nat
  availPhysical : Nat
  totalVirtual : Nat
  availVirtual : Nat
  deriving DecidableEq

def fieldNames : List Str := [c!"MemTotal:", c!"MemFree:", c!"Buffers:", c!"Cached:", c!"SwapTotal:", c!"SwapFree:"]

/-- The inner loop: fields that are still missing are looked for in this line. -/
def scanLine (line : Str) : List Str → List (Option Nat) → List (Option Nat)
  | n :: ns, none :: vs => scanField n line :: scanLine line ns vs
  | _ :: ns, some v :: vs => some v :: scanLine line ns vs
  | _, vs => vs

/-- `none` = "Problem parsing". -/
-- models: vital/kwiversys/SystemInformation.cxx:3919-3955
def newMem (text : Str) : Option Mem :=
  match (pieces 1023 0 [] text).foldl (fun vs l => scanLine l fieldNames vs) [none, none, none, none, none, none] with
  | [some mt, some mf, some bu, some ca, some st, some sf] => some ⟨mt / 1024, (mf + bu + ca) % 2 ^ 64 / 1024, st / 1024, sf / 1024⟩
  | _ => none

/-- A literal of a format: a blank skips blanks, anything else must be there. -/
def scanLit : Str → Str → Option Str
  | [], s => some s
  | c :: l, s => if isSpace c then scanLit l (ltrim s)
    else match s with
      | [] => none
      | d :: s => if d = c then scanLit l s else none

/-- `" %lu"` n times. -/
def scanUs : Nat → Str → Option (List Nat × Str)
  | 0, s => some ([], s)
  | n + 1, s => match scanU s with
    | none => none
    | some (v, s) => (scanUs n s).map fun r => (v :: r.1, r.2)

-- models: vital/kwiversys/SystemInformation.cxx:3957-3990; the first line (or its first 1023 characters) is skipped
def oldMem (text : Str) : Option Mem :=
  match pieces 1023 0 [] text with
  | [] => none
  | h :: _ =>
    match scanLit (c!"Mem:") (text.drop h.length) with
    | none => none
    | some s => match scanUs 6 s with
      | some ([tp, _, ap, _, bu, ca], s) => match scanLit (c!"Swap:") (ltrim s) with
        | none => none
        | some s => match scanUs 3 s with
          | some ([tv, _, av], _) => some ⟨tp / 2 ^ 10 / 2 ^ 10, (ap + bu + ca) % 2 ^ 64 / 2 ^ 10 / 2 ^ 10, tv / 2 ^ 10 / 2 ^ 10, av / 2 ^ 10 / 2 ^ 10⟩
          | _ => none
      | _ => none

/-- The digit at a position of the release, 0 if there is no digit. -/
def digitAt (r : Str) (i : Nat) : Nat := match r[i]? with
  | some c => if isDigit c then digitVal c else 0
  | none => 0

/-- Whether the release is taken for one with the new format of /proc/meminfo. -/
-- models: vital/kwiversys/SystemInformation.cxx:3885-3908, 3917
def isNew (release : Str) : Bool :=
  let major := if 3 ≤ release.length then digitAt release 0 else 0
  let minor := if 3 ≤ release.length then digitAt release 2 else 0
  decide (major ≥ 3) || (decide (major ≥ 2) && decide (minor ≥ 6))

structure Uname where
  sysname : Str
  nodename : Str
  release : Str
  version : Str
  machine : Str
  deriving DecidableEq

-- models: vital/kwiversys/SystemInformation.cxx:3874-3998 (QueryLinuxMemory); the members stay 0 (1564-1567) when it fails
def memInfo (uname : Option Uname) (file : Option Str) : Mem :=
  match uname, file with
  | some u, some t => ((if isNew u.release then newMem t else oldMem t)).getD ⟨0, 0, 0, 0⟩
  | _, _ => ⟨0, 0, 0, 0⟩

/-! ### $SYSENV -/

/-- The machine: files and system calls; `ifaces` are the names that getnameinfo gives for the addresses (`none` = it fails), `hostname`
    is the result of gethostname. -/
structure Machine where
  cwd : Str
  cpuinfo : Option Str
  meminfo : Option Str
  uname : Option Uname
  hostname : Option Str
  ifaces : Option (List (Option Str))
  ptrSize : Nat

/-- The loop over the interfaces. -/
-- models: vital/kwiversys/SystemInformation.cxx:1788-1825
def fqdnLoop (base : Str) : List (Option Str) → Str
  | [] => base
  | none :: l => fqdnLoop base l
  | some h :: l => if (split base h).isSome ∧ base.length < h.length then h else fqdnLoop base l

-- models: vital/kwiversys/SystemInformation.cxx:1728-1829 (GetFullyQualifiedDomainName)
def fqdn (m : Machine) : Str :=
  match m.hostname with
  | none => c!"localhost"
  | some base => match m.ifaces with
    | none => base
    | some l => fqdnLoop base l

/-- The members after the three checks. -/
structure Info where
  cpu : Cpu
  mem : Mem
  osName : Str
  hostname : Str
  osRelease : Str
  osVersion : Str
  osPlatform : Str
  deriving DecidableEq

-- models: vital/config/token_type_sysenv.cxx:42-48 (constructor); SystemInformation.cxx:1588-1690, 5410-5421
def checks (m : Machine) : Except Fail Info :=
  match cpuInfo m.cpuinfo with
  | .error e => .error e
  | .ok c =>
    let mem := memInfo m.uname m.meminfo
    match m.uname with
    | none => .ok ⟨c, mem, [], [], [], [], []⟩
    | some u => .ok ⟨c, mem, u.sysname, u.nodename, u.release, u.version, u.machine⟩

-- models: vital/kwiversys/SystemInformation.cxx:1699-1724 (GetHostname)
def getHostname (m : Machine) (i : Info) : Str :=
  if i.hostname = [] then (match m.uname with
    | none => c!"localhost"
    | some u => u.nodename)
  else i.hostname

def boolText (b : Bool) : Str := if b then c!"TRUE" else c!"FALSE"

-- models: vital/config/token_type_sysenv.cxx:59-226 (lookup_entry); SystemInformation.cxx:698-739
def lookup (m : Machine) (i : Info) (name : Str) : Option Str :=
  if name = c!"cwd" then some m.cwd
  else if name = c!"numproc" then some (natStr i.cpu.logical)
  else if name = c!"totalvirtualmemory" then some (natStr i.mem.totalVirtual)
  else if name = c!"availablevirtualmemory" then some (natStr i.mem.availVirtual)
  else if name = c!"totalphysicalmemory" then some (natStr i.mem.totalPhysical)
  else if name = c!"availablephysicalmemory" then some (natStr i.mem.availPhysical)
  else if name = c!"hostname" then some (getHostname m i)
  else if name = c!"domainname" then some (fqdn m)
  else if name = c!"osname" then some i.osName
  else if name = c!"osdescription" then some (i.osName ++ (c!" ") ++ i.osRelease ++ (c!" ") ++ i.osVersion)
  else if name = c!"osplatform" then some i.osPlatform
  else if name = c!"osversion" then some i.osVersion
  else if name = c!"is64bits" then some (boolText (decide (m.ptrSize = 8)))
  else if name = c!"iswindows" then some (boolText false)
  else if name = c!"islinux" then some (boolText true)
  else if name = c!"isapple" then some (boolText false)
  else none

end Vital.SysInfo
