import Verif.Basic.Str
/-
  Model of vital/kwiversys/ProcessUNIX.c: starting a pipeline of commands, kwsysProcess_Execute and everything it calls except
  kwsysProcessKill (KillTree.lean): 737-1062, 1610-1682, 1694-1783, 1815-1824, 1831-2028, 2081-2127, 2529-2580, 2779-2940;
  properties C203-C207.

  The kernel is part of the state: the descriptors of the calling process, the children that were started with the descriptors
  they see, the working directory and the mask of signals.  Every system call that creates something may fail (`fails`), so
  may every `fork` (`forkFails`) and every `fcntl` (`ctl`; on a closed descriptor it always fails).  A new descriptor has the lowest free number below `limit`.
  Memory is always available; `sigprocmask` and `sigaction` do not fail; interrupted calls are repeated by the code and the
  repetitions are not modelled.
-/
namespace Vital.Proc.Exec

/-! ### The kernel -/

/-- What a descriptor refers to; everything opened gets a new number. -/
inductive Obj where
  /-- something open before the call -/
  | old (fd : Nat)
  | file (id : Nat) (name : Str) (write : Bool)
  | pipeR (id : Nat)
  | pipeW (id : Nat)
  deriving DecidableEq, Repr

structure Fd where
  obj : Obj
  cloexec : Bool
  nonblock : Bool
  deriving DecidableEq, Repr

abbrev Tab := Nat → Option Fd

def setTab (t : Tab) (fd : Nat) (e : Option Fd) : Tab := fun x => if x = fd then e else t x

/-- A child process: what its descriptors refer to once its program runs. -/
structure Child where
  pid : Nat
  index : Nat
  tab : Nat → Option Obj

structure K where
  tab : Tab
  limit : Nat
  nextId : Nat
  nextPid : Nat
  fails : List Bool
  forkFails : List Bool
  ctl : List Bool
  /-- `getcwd` works -/
  getcwdOk : Bool
  /-- going back to the former working directory works -/
  backOk : Bool
  cwd : Str
  /-- SIGINT and SIGTERM are blocked -/
  masked : Bool
  children : List Child
  /-- the children whose program could not be executed -/
  notRun : List Nat
  /-- the arguments of kwsysProcessKill -/
  signalled : List Int
  /-- the arguments of waitpid -/
  waited : List Int
  /-- the object is in the set of objects the signal handlers use -/
  listed : Bool
  /-- `chdir` to the content of uninitialised memory -/
  ub : Bool

/-- Does the next system call work? -/
def pop (k : K) : Bool × K :=
  match k.fails with
  | [] => (true, k)
  | b :: r => (!b, { k with fails := r })

def free (limit : Nat) (t : Tab) : Option Nat := (List.range limit).find? (fun n => (t n).isNone)

-- models: open( name, … )
def openFile (k : K) (name : Str) (write : Bool) : Option Nat × K :=
  match pop k with
  | (false, k) => (none, k)
  | (true, k) =>
    match free k.limit k.tab with
    | none => (none, k)
    | some a => (some a, { k with tab := setTab k.tab a (some ⟨.file k.nextId name write, false, false⟩), nextId := k.nextId + 1 })

-- models: pipe( p )
def mkPipe (k : K) : Option (Nat × Nat) × K :=
  match pop k with
  | (false, k) => (none, k)
  | (true, k) =>
    match free k.limit k.tab with
    | none => (none, k)
    | some a =>
      match free k.limit (setTab k.tab a (some ⟨.pipeR k.nextId, false, false⟩)) with
      | none => (none, k)
      | some b => (some (a, b), { k with tab := setTab (setTab k.tab a (some ⟨.pipeR k.nextId, false, false⟩)) b (some ⟨.pipeW k.nextId, false, false⟩), nextId := k.nextId + 1 })

/-- Does the next `fcntl` work on an open descriptor? -/
def popCtl (k : K) : Bool × K :=
  match k.ctl with
  | [] => (true, k)
  | b :: r => (!b, { k with ctl := r })

-- models: fcntl( fd, … )
def fcntl (k : K) (fd : Int) (f : Fd → Fd) : Bool × K :=
  match popCtl k with
  | (false, k) => (false, k)
  | (true, k) =>
    if fd < 0 then (false, k)
    else match k.tab fd.toNat with
      | none => (false, k)
      | some e => (true, { k with tab := setTab k.tab fd.toNat (some (f e)) })

def cloexecOn (e : Fd) : Fd := { e with cloexec := true }
def nonblockOn (e : Fd) : Fd := { e with nonblock := true }

-- models: vital/kwiversys/ProcessUNIX.c:1774-1783 (kwsysProcessCleanupDescriptor): the table afterwards
def cleanTab (t : Tab) (v : Int) : Tab := if 2 < v then setTab t v.toNat none else t

-- models: the same: the variable afterwards
def cleanVal (v : Int) : Int := if 2 < v then -1 else v

/-! ### The object -/

inductive In where
  | none | file (name : Str) | shared | native (r w : Nat)
  deriving DecidableEq, Repr

inductive Out where
  | pipe | file (name : Str) | shared | native (r w : Nat)
  deriving DecidableEq, Repr

/-- What the caller has configured: number of commands, working directory, redirections (C191-C193 treat how it is set). -/
structure Cfg where
  n : Nat
  wd : Option Str
  detach : Bool
  sin : In
  sout : Out
  serr : Out
  merge : Bool
  deriving DecidableEq, Repr

inductive State where | starting | error | executing
  deriving DecidableEq, Repr

-- models: vital/kwiversys/ProcessUNIX.c:196-299 (struct kwsysProcess_s, the part used here), 182-189 (kwsysProcessCreateInformation) and the local variables
structure S where
  k : K
  rOut : Int
  rErr : Int
  rSig : Int
  sig : Int
  std0 : Int
  std1 : Int
  std2 : Int
  forkPids : List Int
  /-- RealWorkingDirectory: allocated, and its content -/
  realCwd : Option (Option Str)
  state : State
  next : Int
  sIn : Int
  sOut : Int
  sErr : Int
  e0 : Int
  e1 : Int
  g0 : Int
  g1 : Int

/-- A step: does it go on? -/
abbrev Act := S → Bool × S

def Act.seq (f g : Act) : Act := fun s =>
  match f s with
  | (true, s') => g s'
  | (false, s') => (false, s')

infixr:60 " &> " => Act.seq

def ok : Act := fun s => (true, s)
def stop : Act := fun s => (false, s)
def upd (f : S → S) : Act := fun s => (true, f s)
def orElse (f g : Act) : Act := fun s =>
  match f s with
  | (true, s') => (true, s')
  | (false, s') => (false, (g s').2)

/-- `fcntl` on the descriptor in a variable -/
def doCtl (v : S → Int) (f : Fd → Fd) : Act := fun s => ((fcntl s.k (v s) f).1, { s with k := (fcntl s.k (v s) f).2 })

/-- `pipe`, storing both ends -/
def doPipe (put : Nat → Nat → S → S) : Act := fun s =>
  match mkPipe s.k with
  | (none, k) => (false, { s with k := k })
  | (some (a, b), k) => (true, put a b { s with k := k })

def doOpen (name : Str) (write : Bool) (put : Nat → S → S) : Act := fun s =>
  match openFile s.k name write with
  | (none, k) => (false, { s with k := k })
  | (some a, k) => (true, put a { s with k := k })

def withTab (s : S) (t : Tab) : S := { s with k := { s.k with tab := t } }

def clE0 (s : S) : S := { withTab s (cleanTab s.k.tab s.e0) with e0 := cleanVal s.e0 }
def clE1 (s : S) : S := { withTab s (cleanTab s.k.tab s.e1) with e1 := cleanVal s.e1 }
def clG0 (s : S) : S := { withTab s (cleanTab s.k.tab s.g0) with g0 := cleanVal s.g0 }
def clG1 (s : S) : S := { withTab s (cleanTab s.k.tab s.g1) with g1 := cleanVal s.g1 }
def clStd0 (s : S) : S := { withTab s (cleanTab s.k.tab s.std0) with std0 := cleanVal s.std0 }
def clStd1 (s : S) : S := { withTab s (cleanTab s.k.tab s.std1) with std1 := cleanVal s.std1 }
def clStd2 (s : S) : S := { withTab s (cleanTab s.k.tab s.std2) with std2 := cleanVal s.std2 }
def clROut (s : S) : S := { withTab s (cleanTab s.k.tab s.rOut) with rOut := cleanVal s.rOut }
def clRErr (s : S) : S := { withTab s (cleanTab s.k.tab s.rErr) with rErr := cleanVal s.rErr }
def clRSig (s : S) : S := { withTab s (cleanTab s.k.tab s.rSig) with rSig := cleanVal s.rSig }
def clSig (s : S) : S := { withTab s (cleanTab s.k.tab s.sig) with sig := cleanVal s.sig }
-- models: vital/kwiversys/ProcessUNIX.c:995-998, 1006-1009, 1038-1041
def clNext (s : S) : S := if s.next ≠ s.std0 then { withTab s (cleanTab s.k.tab s.next) with next := cleanVal s.next } else s
-- models: vital/kwiversys/ProcessUNIX.c:1022-1025
def clSIn (s : S) : S := if s.sIn ≠ s.std0 then { withTab s (cleanTab s.k.tab s.sIn) with sIn := cleanVal s.sIn } else s
-- models: vital/kwiversys/ProcessUNIX.c:1026-1029
def clSOut (s : S) : S := if s.sOut ≠ s.std1 then { withTab s (cleanTab s.k.tab s.sOut) with sOut := cleanVal s.sOut } else s
-- models: vital/kwiversys/ProcessUNIX.c:1030-1033
def clSErr (c : Cfg) (s : S) : S := if s.sErr ≠ s.std2 ∧ c.merge = false then { withTab s (cleanTab s.k.tab s.sErr) with sErr := cleanVal s.sErr } else s

/-! ### Starting one command -/

/-- `dup2( v, n )` with the close-on-exec flag of the copy cleared; fails for a descriptor that is not open -/
def dup2 (t : Tab) (v : Int) (n : Nat) : Tab :=
  if v < 0 then t else match t v.toNat with
    | none => t
    | some e => setTab t n (some { e with cloexec := false })

/-- `fcntl( n, F_SETFD, 0 )` in the child -/
def inherit (t : Tab) (n : Nat) : Tab := setTab t n ((t n).map (fun e => { e with cloexec := false }))

/-- what `exec` keeps -/
def afterExec (t : Tab) : Nat → Option Obj := fun x => match t x with
  | some e => if e.cloexec then none else some e.obj
  | none => none

/-- The descriptors of a child when its program starts. -/
-- models: vital/kwiversys/ProcessUNIX.c:1904-1934, 1952
def childTab (s : S) : Nat → Option Obj :=
  let t := setTab (setTab s.k.tab s.e0.toNat none) s.g0.toNat none
  let t := if 0 < s.sIn then dup2 t s.sIn 0 else if s.sIn < 0 then setTab t 0 none else t
  let t := if s.sOut ≠ 1 then dup2 t s.sOut 1 else t
  let t := if s.sErr ≠ 2 then dup2 t s.sErr 2 else t
  afterExec (inherit (inherit (inherit t 0) 1) 2)

def block : Act := upd (fun s => { s with k := { s.k with masked := true } })
def unblock (old : Bool) : Act := upd (fun s => { s with k := { s.k with masked := old } })

-- models: vital/kwiversys/ProcessUNIX.c:2529-2580 (kwsysProcessFork); the intermediate process of a detached child is not a child any more when it returns
def fork (i : Nat) : Act := fun s =>
  match s.k.forkFails with
  | true :: r => (false, { s with k := { s.k with forkFails := r }, forkPids := s.forkPids.set i (-1) })
  | l => (true, { s with
      k := { s.k with forkFails := l.tail, nextPid := s.k.nextPid + 1, children := s.k.children ++ [⟨s.k.nextPid, i, childTab s⟩] }
      forkPids := s.forkPids.set i s.k.nextPid })

/-- a call that works or not and has no other effect -/
def call : Act := fun s => ((pop s.k).1, { s with k := (pop s.k).2 })

/-- the child reports that it cannot execute its program, or closes the error pipe by executing it -/
def execResult : Act := fun s =>
  match pop s.k with
  | (true, k) => (true, { s with k := k })
  | (false, k) => (false, { s with k := { k with notRun := k.notRun ++ [k.nextPid - 1] } })

def clE (s : S) : S := clE1 (clE0 s)
def clEG (s : S) : S := clG1 (clG0 (clE s))

-- models: vital/kwiversys/ProcessUNIX.c:1831-2028 (kwsysProcessCreate)
def create (i : Nat) : Act := fun s =>
  (doPipe (fun a b s => { s with e0 := a, e1 := b }) &>
   orElse (doPipe (fun a b s => { s with g0 := a, g1 := b })) (upd clE) &>
   orElse (doCtl S.e1 cloexecOn &> doCtl S.g1 cloexecOn) (upd clEG) &>
   block &>
   orElse (fork i) (unblock s.k.masked &> upd clEG) &>
   upd clE1 &> upd clG1 &>
   orElse call (unblock s.k.masked &> upd clE0 &> upd clG0) &>
   upd clG0 &>
   unblock s.k.masked &>
   orElse execResult (upd clE0) &>
   upd clE0) s

/-! ### The whole call -/

-- models: vital/kwiversys/ProcessUNIX.c:1610-1682 (kwsysProcessInitialize)
def init (c : Cfg) (s : S) : S :=
  { s with rOut := -1, rErr := -1, rSig := -1, sig := -1, std0 := -1, std1 := -1, std2 := -1, forkPids := List.replicate c.n 0
           realCwd := c.wd.map (fun _ => none), state := .starting, next := -1, sIn := -1, sOut := -1, sErr := -1, e0 := -1, e1 := -1, g0 := -1, g1 := -1 }

-- models: vital/kwiversys/ProcessUNIX.c:1703-1739
def cleanupError (s : S) : S :=
  { s with
    state := .error
    k := { s.k with
      signalled := s.k.signalled ++ s.forkPids.filter (· ≠ 0)
      waited := s.k.waited ++ s.forkPids.filter (· ≠ 0)
      ub := s.k.ub || (s.realCwd == some none)
      cwd := match s.realCwd with
        | some (some d) => if s.k.backOk then d else s.k.cwd
        | _ => s.k.cwd } }

-- models: vital/kwiversys/ProcessUNIX.c:1741-1771 (kwsysProcessCleanup, the rest)
def cleanupRest (c : Cfg) (s : S) : S :=
  let s := if c.detach then s else clSig { s with k := { s.k with listed := false } }
  clStd2 (clStd1 (clStd0 (clRSig (clRErr (clROut { s with forkPids := [], realCwd := none })))))

-- models: vital/kwiversys/ProcessUNIX.c:775-796
def chdirStep (c : Cfg) : Act := fun s =>
  match c.wd with
  | none => (true, s)
  | some d =>
    if s.k.getcwdOk then
      (call &> upd (fun s => { s with k := { s.k with cwd := d } })) { s with realCwd := some (some s.k.cwd) }
    else (false, s)

-- models: vital/kwiversys/ProcessUNIX.c:2779-2888 (kwsysProcessesAdd; the set itself is in Table.lean)
def add : Act :=
  doPipe (fun a b s => { s with rSig := a, sig := b }) &>
  doCtl S.rSig nonblockOn &> doCtl S.sig nonblockOn &> doCtl S.rSig cloexecOn &> doCtl S.sig cloexecOn &>
  upd (fun s => { s with k := { s.k with listed := true } })

-- models: vital/kwiversys/ProcessUNIX.c:811-850
def stdinStep : In → Act
  | .file name => doOpen name false (fun a s => { s with std0 := a }) &> doCtl S.std0 cloexecOn
  | .shared => upd (fun s => { s with std0 := 0 })
  | .native r w => upd (fun s => { s with std0 := r }) &> doCtl (fun _ => r) cloexecOn &> doCtl (fun _ => w) cloexecOn
  | .none => upd (fun s => { s with std0 := -1 })

-- models: vital/kwiversys/ProcessUNIX.c:855-885
def outPipe : Act :=
  doPipe (fun a b s => { s with rOut := a, std1 := b }) &> doCtl S.rOut cloexecOn &> doCtl S.std1 cloexecOn &> doCtl S.rOut nonblockOn

-- models: vital/kwiversys/ProcessUNIX.c:915-945
def errPipe : Act :=
  doPipe (fun a b s => { s with rErr := a, std2 := b }) &> doCtl S.rErr cloexecOn &> doCtl S.std2 cloexecOn &> doCtl S.rErr nonblockOn

/-- The descriptor of the file is stored only when `fcntl` works on it. -/
-- models: vital/kwiversys/ProcessUNIX.c:2081-2107 (kwsysProcessSetupOutputPipeFile)
def openOut (name : Str) (put : Nat → S → S) : Act := fun s =>
  match openFile s.k name true with
  | (none, k) => (false, { s with k := k })
  | (some a, k) => (doCtl (fun _ => (a : Int)) cloexecOn &> upd (put a)) { s with k := k }

-- models: vital/kwiversys/ProcessUNIX.c:887-910, 2110-2127 (kwsysProcessSetupOutputPipeNative)
def outSetup : Out → Act
  | .file name => upd clStd1 &> openOut name (fun a s => { s with std1 := a })
  | .shared => upd clStd1 &> upd (fun s => { s with std1 := 1 })
  | .native r w => upd clStd1 &> doCtl (fun _ => r) cloexecOn &> doCtl (fun _ => w) cloexecOn &> upd (fun s => { s with std1 := w })
  | .pipe => ok

-- models: vital/kwiversys/ProcessUNIX.c:947-970
def errSetup : Out → Act
  | .file name => upd clStd2 &> openOut name (fun a s => { s with std2 := a })
  | .shared => upd clStd2 &> upd (fun s => { s with std2 := 2 })
  | .native r w => upd clStd2 &> doCtl (fun _ => r) cloexecOn &> doCtl (fun _ => w) cloexecOn &> upd (fun s => { s with std2 := w })
  | .pipe => ok

/-- the pipe to the next command; its ends are not in the variables yet when `fcntl` fails -/
-- models: vital/kwiversys/ProcessUNIX.c:991-1014
def nextPipe : Act := fun s =>
  match mkPipe s.k with
  | (none, k) => (false, clNext { s with k := k })
  | (some (a, b), k) =>
    match (doCtl (fun _ => (a : Int)) cloexecOn &> doCtl (fun _ => (b : Int)) cloexecOn) { s with k := k } with
    | (true, s) => (true, { s with next := a, sOut := b })
    | (false, s) => (false, clNext (withTab s (setTab (setTab s.k.tab a none) b none)))

-- models: vital/kwiversys/ProcessUNIX.c:980-1046 (the body of the loop)
def command (c : Cfg) (i : Nat) : Act :=
  upd (fun s => { s with sIn := s.next }) &>
  (if i + 1 = c.n then upd (fun s => { s with next := -1, sOut := s.std1 }) else nextPipe) &>
  upd (fun s => { s with sErr := if c.merge then s.std1 else s.std2 }) &>
  orElse (create i) (upd clSIn &> upd clSOut &> upd (clSErr c) &> upd clE &> upd clNext) &>
  upd clSIn &> upd clSOut &> upd (clSErr c)

-- models: vital/kwiversys/ProcessUNIX.c:979 (the loop), commands i to i + m - 1
def commands (c : Cfg) : Nat → Nat → Act
  | _, 0 => ok
  | i, m + 1 => command c i &> commands c (i + 1) m

-- models: vital/kwiversys/ProcessUNIX.c:1049-1062
def finish (s : S) : S :=
  let s := clStd2 (clStd1 (clStd0 s))
  { s with
    realCwd := none, state := .executing
    k := { s.k with cwd := match s.realCwd with
      | some (some d) => if s.k.backOk then d else s.k.cwd
      | _ => s.k.cwd } }

def startUp (c : Cfg) : Act :=
  chdirStep c &>
  (if c.detach then ok else add) &>
  stdinStep c.sin &> outPipe &> outSetup c.sout &> errPipe &> errSetup c.serr &>
  upd (fun s => { s with next := s.std0 }) &>
  commands c 0 c.n

-- models: vital/kwiversys/ProcessUNIX.c:737-1062 (kwsysProcess_Execute)
def execute (c : Cfg) (s : S) : S :=
  if s.state = .executing then s
  else if c.n < 1 then { s with state := .error }
  else match startUp c (init c s) with
    | (true, s) => finish s
    | (false, s) => cleanupRest c (cleanupError s)

end Vital.Proc.Exec
