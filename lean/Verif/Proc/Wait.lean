import Verif.Basic.Str
/-
  Model of vital/kwiversys/ProcessUNIX.c: waiting for an executing (not detached) process object, killing it and the
  notification of exited children through the SIGCHLD handler and the signal pipe (the variant with `select`):
  1111-1120, 1122-1330, 1406-1488, 1536-1596, 1684-1771, 2031-2078, 2966-2993; properties C196-C200.

  The kernel is part of the state: the children (running, exited but not reaped, reaped), the two output pipes, the signal pipe,
  a pending SIGCHLD, and the number of handler activations between their `read` and their `write` (the handler may run in any
  thread, so its two calls are separate steps).  Everything the environment does is in the list `sched`; before every system
  call of the object the next entry happens.  `select` consumes entries until something is ready, the timeout expires or
  `select` fails; when the list is exhausted and nothing is ready, it blocks for ever (`hang`).  A system call interrupted by
  a signal is repeated by the code; such repetitions are not modelled.  A pipe is unbounded, `read` returns what is there up to
  1024 bytes.  The elapsed times are not modelled here (C194): a timeout is an entry of `sched`.
-/
namespace Vital.Proc.Wait

/-! ### The code and the kernel -/

/-- A child: running, exited with a wait status but not reaped, reaped. -/
inductive Child where
  | running
  | zombie (st : Nat)
  | gone (st : Nat)
  deriving DecidableEq, Repr

/-- An output pipe of the children: its unread content, whether some process can still write, all that was ever written;
    and the object's side: whether `PipeReadEnds[i]` is open and in `PipeSet`. -/
structure Stream where
  content : List Nat
  wopen : Bool
  written : List Nat
  rOpen : Bool
  inSet : Bool
  deriving DecidableEq, Repr

inductive Which where | out | err
  deriving DecidableEq, Repr

/-- What the environment can do. -/
inductive Ev where
  | write (p : Which) (b : List Nat)
  | close (p : Which)
  | exit (i : Nat) (st : Nat)
  /-- SIGCHLD for another reason -/
  | sigchld
  /-- the handler starts: it reads one byte -/
  | hRead
  /-- the handler writes one byte and ends -/
  | hWrite
  deriving DecidableEq, Repr

inductive Step where
  | evs (l : List Ev)
  /-- the timeout of the call (`user`) or of the process expires -/
  | timeout (user : Bool)
  /-- `select` fails -/
  | error
  deriving DecidableEq, Repr

-- models: vital/kwiversys/Process.h.in:215-226 (the states that occur here)
inductive State where | executing | error | exception | exited | expired | killed
  deriving DecidableEq, Repr

-- models: vital/kwiversys/ProcessUNIX.c:196-299 (struct kwsysProcess_s) and the kernel objects behind it
structure W where
  children : List Child
  out : Stream
  err : Stream
  sigBytes : Nat
  pending : Bool
  hActive : Nat
  /-- the handler wrote to a pipe without reader: SIGPIPE -/
  sigpipe : Bool
  /-- signals sent to a process that is not a child any more -/
  stray : Nat
  sched : List Step
  rSig : Bool
  setSig : Bool
  sigW : Bool
  /-- `ForkPIDs[i] ≠ 0` -/
  fork : List Bool
  codes : List Nat
  pipesLeft : Int
  commandsLeft : Int
  state : State
  killed : Bool
  timeoutExpired : Bool
  selectError : Bool
  exitCode : Nat
  exitValue : Nat
  deriving DecidableEq, Repr

def W.stream (w : W) : Which → Stream
  | .out => w.out | .err => w.err

def W.setStream (w : W) (p : Which) (s : Stream) : W :=
  match p with | .out => { w with out := s } | .err => { w with err := s }

/-- What an event does. -/
-- models: the kernel, and vital/kwiversys/ProcessUNIX.c:2981-2993 (kwsysProcessesSignalHandler, SIGCHLD, for this object)
def event (w : W) : Ev → W
  | .write p b =>
    if (w.stream p).wopen then w.setStream p { w.stream p with content := (w.stream p).content ++ b, written := (w.stream p).written ++ b } else w
  | .close p => w.setStream p { w.stream p with wopen := false }
  | .exit i st => if w.children[i]? = some .running then { w with children := w.children.set i (.zombie st), pending := true } else w
  | .sigchld => { w with pending := true }
  | .hRead => if w.pending then { w with pending := false, hActive := w.hActive + 1, sigBytes := if w.rSig then w.sigBytes - 1 else w.sigBytes } else w
  | .hWrite =>
    if 0 < w.hActive then
      { w with hActive := w.hActive - 1, sigBytes := if w.sigW then w.sigBytes + 1 else w.sigBytes, sigpipe := w.sigpipe || (w.sigW && !w.rSig) }
    else w

def events (w : W) (l : List Ev) : W := l.foldl event w

/-- What happens before a system call. -/
def tick (w : W) : W :=
  match w.sched with
  | [] => w
  | .evs l :: r => events { w with sched := r } l
  | _ :: r => { w with sched := r }

-- models: vital/kwiversys/ProcessUNIX.c:2048-2056 (waitpid with WNOHANG for command i, and what follows); `gone` is ECHILD
def reap (w : W) (i : Nat) : W :=
  match w.children[i]? with
  | some (.zombie st) =>
    let w1 := { w with children := w.children.set i (.gone st), codes := w.codes.set i st, fork := w.fork.set i false, commandsLeft := w.commandsLeft - 1 }
    if w1.commandsLeft = 0 then { w1 with sigW := false } else w1
  | some .running => w
  | _ => if w.state ≠ .error then { w with state := .error } else w

-- models: vital/kwiversys/ProcessUNIX.c:2046-2074 (the loop in kwsysProcessDestroy), from command i on, k commands
def destroyFrom (w : W) (i : Nat) : Nat → W
  | 0 => w
  | k + 1 => destroyFrom (if w.fork[i]? = some true then reap (tick w) i else w) (i + 1) k

-- models: vital/kwiversys/ProcessUNIX.c:2031-2078 (kwsysProcessDestroy)
def destroy (w : W) : W := destroyFrom w 0 w.children.length

/-- One output pipe in `WaitForPipe`: the bytes to report, if any. -/
-- models: vital/kwiversys/ProcessUNIX.c:1220-1278 (the loop body for i = 0, 1)
def handleStream (w : W) (p : Which) (data : Bool) : W × Option (List Nat) :=
  if (w.stream p).rOpen && (w.stream p).inSet then
    let w1 := tick (w.setStream p { w.stream p with inSet := false })
    if (w1.stream p).content ≠ [] then
      (w1.setStream p { w1.stream p with content := (w1.stream p).content.drop 1024 }, if data then some ((w1.stream p).content.take 1024) else none)
    else if (w1.stream p).wopen then (w1, none)                             -- EAGAIN
    else ({ w1.setStream p { w1.stream p with rOpen := false } with pipesLeft := w1.pipesLeft - 1 }, none)
  else (w, none)

/-- The signal pipe in `WaitForPipe`. -/
-- models: vital/kwiversys/ProcessUNIX.c:1220-1278 (the loop body for i = 2)
def handleSig (w : W) : W :=
  if w.rSig && w.setSig then
    let w1 := tick { w with setSig := false }
    if w1.sigBytes ≠ 0 then destroy { w1 with sigBytes := w1.sigBytes - 1024 }
    else if w1.sigW then w1
    else { w1 with rSig := false, pipesLeft := w1.pipesLeft - 1 }
  else w

def Stream.ready (s : Stream) : Bool := s.rOpen && (s.content ≠ [] || !s.wopen)
def W.sigReady (w : W) : Bool := w.rSig && (w.sigBytes ≠ 0 || !w.sigW)
def W.anyReady (w : W) : Bool := w.out.ready || w.err.ready || w.sigReady

/-- `PipeSet` as `select` leaves it. -/
def W.ready (w : W) : W :=
  { w with out := { w.out with inSet := w.out.ready }, err := { w.err with inSet := w.err.ready }, setSig := w.sigReady }

inductive Sel where
  | ready (w : W) | expired (user : Bool) (w : W) | error (w : W) | hang (w : W)

-- models: the system call `select`
def select (w : W) : List Step → Sel
  | [] => if w.anyReady then .ready w.ready else .hang w
  | .evs l :: r =>
    if w.anyReady then .ready w.ready else select (events { w with sched := r } l) r
  | .timeout u :: r => if w.anyReady then .ready w.ready else .expired u { w with sched := r }
  | .error :: r => if w.anyReady then .ready w.ready else .error { w with sched := r }

/-- One pipe in `kwsysProcessClosePipes`. -/
-- models: vital/kwiversys/ProcessUNIX.c:1741-1769
def closeStream (w : W) (p : Which) : W :=
  if (w.stream p).rOpen then
    let w1 := if (w.stream p).inSet then
        (let w0 := tick (w.setStream p { w.stream p with inSet := false })
         w0.setStream p { w0.stream p with content := (w0.stream p).content.drop 1024 })
      else w
    { w1.setStream p { w1.stream p with rOpen := false } with pipesLeft := w1.pipesLeft - 1 }
  else w

def closeSig (w : W) : W :=
  if w.rSig then
    let w1 := if w.setSig then (let w0 := tick { w with setSig := false }
                                { w0 with sigBytes := w0.sigBytes - 1024 }) else w
    { w1 with rSig := false, pipesLeft := w1.pipesLeft - 1 }
  else w

-- models: vital/kwiversys/ProcessUNIX.c:1736-1771 (kwsysProcessClosePipes)
def closePipes (w : W) : W := closeSig (closeStream (closeStream w .out) .err)

/-- SIGKILL for command i and the blocking `waitpid`. -/
-- models: vital/kwiversys/ProcessUNIX.c:1570-1580; its descendants are not part of this model
def killOne (w : W) (i : Nat) : W :=
  let w := tick w
  match w.children[i]? with
  | some .running => { w with children := w.children.set i (.gone 9), pending := true }
  | some (.zombie st) => { w with children := w.children.set i (.gone st) }
  | _ => { w with stray := w.stray + 1 }

def killFrom (w : W) (i : Nat) : Nat → W
  | 0 => w
  | k + 1 => killFrom (if w.fork[i]? = some true then killOne w i else w) (i + 1) k

-- models: vital/kwiversys/ProcessUNIX.c:1541-1596 (kwsysProcess_Kill); ForkPIDs is not changed
def kill (w : W) : W :=
  if w.state ≠ .executing then w
  else
    let w1 := { closePipes { w with sigW := false } with killed := true }
    { killFrom w1 0 w1.fork.length with commandsLeft := 0 }

/-- What `kwsysProcessWaitForPipe` reports through its return value and `wd`. -/
inductive PipeRes where
  | data (p : Which) (b : List Nat) | expired (user : Bool) | closed | again | hang | fuel

/-- The end of `WaitForPipe`: timeout, no open pipe, or `select`. -/
-- models: vital/kwiversys/ProcessUNIX.c:1286-1352
def waitSelect (w : W) : W × PipeRes :=
  match w.sched with
  | .timeout u :: r => ({ w with sched := r }, .expired u)
  | _ =>
    if w.out.rOpen = false ∧ w.err.rOpen = false ∧ w.rSig = false then (w, .closed)
    else
      match select w w.sched with
      | .ready w => (w, .again)
      | .expired u w => ({ w with out := { w.out with inSet := false }, err := { w.err with inSet := false }, setSig := false }, .expired u)
      | .error w => ({ kill { w with out := { w.out with inSet := w.out.rOpen }, err := { w.err with inSet := w.err.rOpen }, setSig := w.rSig } with killed := false, selectError := true }, .again)
      | .hang w => (w, .hang)

-- models: vital/kwiversys/ProcessUNIX.c:1205-1353 (kwsysProcessWaitForPipe); FD_ZERO before the timeout check
def waitForPipe (w : W) (data : Bool) : W × PipeRes :=
  let r1 := handleStream w .out data
  match r1.2 with
  | some b => (r1.1, .data .out b)
  | none =>
    let r2 := handleStream r1.1 .err data
    match r2.2 with
    | some b => (r2.1, .data .err b)
    | none =>
      let w3 := handleSig r2.1
      waitSelect { w3 with out := { w3.out with inSet := false }, err := { w3.err with inSet := false }, setSig := false }

/-- Bounds the number of turns of the loop: what can still happen, be read or be closed. -/
def Ev.size : Ev → Nat
  | .write _ b => b.length + 1
  | .hWrite => 2
  | _ => 1

def Step.size : Step → Nat
  | .evs l => (l.map Ev.size).sum + 1
  | _ => 1

def W.work (w : W) : Nat :=
  (w.sched.map Step.size).sum + w.out.content.length + w.err.content.length + w.sigBytes + w.out.rOpen.toNat + w.err.rOpen.toNat + w.rSig.toNat

-- models: vital/kwiversys/ProcessUNIX.c:1163-1164 (the loop); the fuel is enough, see `waitLoop_fuel`
def waitLoop (w : W) (data : Bool) : Nat → W × PipeRes
  | 0 => (w, .fuel)
  | n + 1 =>
    if w.pipesLeft > 0 then
      match waitForPipe w data with
      | (w1, .again) => waitLoop w1 data n
      | r => r
    else (w, .closed)

inductive Res where
  | pipe (p : Which) (b : List Nat) | timeout | none | hang | fuel
  deriving DecidableEq

-- models: vital/kwiversys/ProcessUNIX.c:1130-1202 (kwsysProcess_WaitForData)
def waitForData (w : W) (data : Bool) : W × Res :=
  if w.state ≠ .executing ∨ w.killed = true ∨ w.timeoutExpired = true then (w, .none)
  else
    match waitLoop w data (w.work + 2) with
    | (w1, .data p b) => (w1, .pipe p b)
    | (w1, .expired true) => (w1, .timeout)
    | (w1, .expired false) => ({ kill w1 with killed := false, timeoutExpired := true }, .none)
    | (w1, .hang) => (w1, .hang)
    | (w1, .fuel) => (w1, .fuel)
    | (w1, _) => (w1, .none)

/-- `kwsysProcessCleanup( cp, 0 )`. -/
-- models: vital/kwiversys/ProcessUNIX.c:1706-1732, 2929-2932
def cleanup (w : W) : W :=
  { w with sigW := false, fork := [], out := { w.out with rOpen := false }, err := { w.err with rOpen := false }, rSig := false }

/-- The macros of wait status: WIFEXITED, WEXITSTATUS, WIFSIGNALED, WTERMSIG (Linux). -/
def exitedNormally (st : Nat) : Bool := st % 128 = 0
def exitStatus (st : Nat) : Nat := st / 256 % 256
def signaled (st : Nat) : Bool := 0 < st % 128 && st % 128 < 127
def termSig (st : Nat) : Nat := st % 128

inductive Ret where | zero | one | hang | fuel
  deriving DecidableEq

/-- The outcome from the status of the last command. -/
-- models: vital/kwiversys/ProcessUNIX.c:1439-1477
def outcome (w : W) : W :=
  let status := w.codes.getLast?.getD 0
  if w.killed then { w with state := .killed }
  else if w.timeoutExpired then { w with state := .expired }
  else if exitedNormally status then { w with state := .exited, exitCode := status, exitValue := exitStatus status }
  else if signaled status then { w with state := .exception, exitCode := status }
  else { w with state := .error }

-- models: vital/kwiversys/ProcessUNIX.c:1406-1483 (kwsysProcess_WaitForExit); `WaitForData` without data never reports a pipe, so its loop has one turn
def waitForExit (w : W) : W × Ret :=
  if w.state ≠ .executing then (w, .one)
  else
    match waitForData w false with
    | (w1, .timeout) => (w1, .zero)
    | (w1, .hang) => (w1, .hang)
    | (w1, .fuel) => (w1, .fuel)
    | (w1, _) =>
      if w1.state = .error then (cleanup w1, .one)
      else if w1.selectError then ({ cleanup w1 with state := .error }, .one)
      else (cleanup (outcome w1), .one)

/-- The object when `Execute` has returned: `n` commands, everything open. -/
-- models: vital/kwiversys/ProcessUNIX.c:1086-1107 and 1626-1647
def started (n : Nat) (sched : List Step) : W :=
  { children := List.replicate n .running, out := ⟨[], true, [], true, false⟩, err := ⟨[], true, [], true, false⟩, sigBytes := 0, pending := false, hActive := 0,
    sigpipe := false, stray := 0, sched := sched, rSig := true, setSig := false, sigW := true, fork := List.replicate n true, codes := List.replicate n 0,
    pipesLeft := 3, commandsLeft := n, state := .executing, killed := false, timeoutExpired := false, selectError := false, exitCode := 1, exitValue := 1 }

/-- one command writes "hi" (104 105) to stdout in two parts, to stderr once, and exits with 3 -/
def demo : W := started 1 [.evs [.write .out [104]], .evs [.write .out [105], .write .err [33]], .evs [.exit 0 768, .hRead], .evs [.hWrite, .close .out], .evs [.close .err], .evs []]

end Vital.Proc.Wait
