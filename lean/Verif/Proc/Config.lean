import Verif.Sys.Command
import Mathlib.Algebra.Order.Ring.Rat
/-
  Model of vital/kwiversys/ProcessUNIX.c: creation, configuration and deletion of a process object
  (lines 298-683); properties C191-C193.

  A C string is the list of its characters before its final NUL.  Every `malloc`/`strdup` asks the
  list `mem` for its answer (an exhausted list answers "success"); `live` counts the blocks that are
  allocated and not freed (`free` of a block subtracts one).  The object itself is one block.
  `kwsysSystem_Parse_CommandForUnix` is the model of C146 with ONE answer of `mem` for the whole call
  (on failure it returns NULL and has freed what it allocated: System.c:262-275).
  Not modelled: the sizes passed to malloc; an object that has executed something (`CommandExitCodes`,
  freed by `Delete`, and waiting in `Delete`: see Verif/Proc/Wait.lean).
-/
namespace Vital.Proc

/-! ### The code -/

-- models: vital/kwiversys/Process.h.in:325-332 (kwsysProcess_Pipes_e: STDIN 1, STDOUT 2, STDERR 3)
inductive Pipe where | stdin | stdout | stderr
  deriving DecidableEq, Repr

/-- The `switch(prPipe)` in the three setters; `none` is its default branch. -/
-- models: vital/kwiversys/ProcessUNIX.c:550-556, 586-592, 613-619
def pipeOf (prPipe : Int) : Option Pipe :=
  if prPipe = 1 then some .stdin else if prPipe = 2 then some .stdout else if prPipe = 3 then some .stderr else none

/-- `PipeFileX`, `PipeSharedX`, `PipeNativeX`. -/
-- models: vital/kwiversys/ProcessUNIX.c:281-294
structure PipeConf where
  file : Option Str
  shared : Bool
  native : Int × Int
  deriving DecidableEq

-- models: vital/kwiversys/ProcessUNIX.c:196-299 (struct kwsysProcess_s, the members that configuration uses); `commands = none` is the NULL pointer, NumberOfCommands the length
structure Obj where
  commands : Option (List (List Str))
  timeout : Rat
  workDir : Option Str
  inp : PipeConf
  out : PipeConf
  err : PipeConf
  detach : Int
  merge : Int
  verbatim : Int
  group : Int
  mem : List Bool
  live : Int
  deriving DecidableEq

def Obj.pipe (o : Obj) : Pipe → PipeConf
  | .stdin => o.inp | .stdout => o.out | .stderr => o.err

def Obj.setPipe (o : Obj) (p : Pipe) (c : PipeConf) : Obj :=
  match p with
  | .stdin => { o with inp := c } | .stdout => { o with out := c } | .stderr => { o with err := c }

def Obj.number (o : Obj) : Nat := (o.commands.getD []).length

/-- One `malloc` or `strdup`. -/
def Obj.malloc (o : Obj) : Bool × Obj :=
  match o.mem with
  | [] => (true, { o with live := o.live + 1 })
  | true :: m => (true, { o with mem := m, live := o.live + 1 })
  | false :: m => (false, { o with mem := m })

def Obj.free (o : Obj) (n : Nat) : Obj := { o with live := o.live - n }

-- models: vital/kwiversys/ProcessUNIX.c:302-329 (kwsysProcess_New)
def new (mem : List Bool) : Option Obj :=
  let o : Obj := ⟨none, 0, none, ⟨none, true, (-1, -1)⟩, ⟨none, false, (-1, -1)⟩, ⟨none, false, (-1, -1)⟩, 0, 0, 0, 0, mem, 0⟩
  if o.malloc.1 then some o.malloc.2 else none

/-- `strdup` of `n` arguments: how many succeed before the first failure. -/
-- models: vital/kwiversys/ProcessUNIX.c:461-469
def dupArgs : Obj → Nat → Nat × Obj
  | o, 0 => (0, o)
  | o, n + 1 => if o.malloc.1 then ((dupArgs o.malloc.2 n).1 + 1, (dupArgs o.malloc.2 n).2) else (0, o.malloc.2)

/-- The blocks of one command line: the array and its strings. -/
def cmdBlocks (c : List Str) : Nat := c.length + 1

/-- The new command line of the verbatim case: the strings of the parsed line, without their NUL. -/
-- models: vital/kwiversys/ProcessUNIX.c:434-446; a command line of 2^30 characters or more (undefined behaviour in System.c) counts as out of memory
def parsedCommand (o : Obj) (line : Str) : Option (List Str) × Obj :=
  match o.mem with
  | false :: m => (none, { o with mem := m })
  | _ =>
    match Command.parseCommand line 0 with
    | some (some args) => (some (args.map List.dropLast), { o with mem := o.mem.drop 1, live := o.live + cmdBlocks args })
    | _ => (none, { o with mem := o.mem.drop 1 })

/-- The end of `AddCommand`: free the old array of command pointers, store the new one. -/
-- models: vital/kwiversys/ProcessUNIX.c:485-491 and 425-431 (the old commands are in the new array)
def install (o : Obj) (old : Option (List (List Str))) (c : List Str) : Obj :=
  { o with commands := some (old.getD [] ++ [c]), live := o.live - (if old.isSome then 1 else 0) }

/-- The verbatim case, after the array of command pointers has been allocated. -/
-- models: vital/kwiversys/ProcessUNIX.c:434-448, 485-491
def addVerbatim (o1 : Obj) (old : Option (List (List Str))) (line : Str) : Int × Obj :=
  match (parsedCommand o1 line).1 with
  | none => (0, (parsedCommand o1 line).2.free 1)
  | some [] => (0, (parsedCommand o1 line).2.free 1)        -- the parsed (empty) array itself is not freed
  | some (a :: as) => (1, install (parsedCommand o1 line).2 old (a :: as))

/-- The other case, after the array of command pointers has been allocated. -/
-- models: vital/kwiversys/ProcessUNIX.c:449-483, 485-491
def addCopied (o1 : Obj) (old : Option (List (List Str))) (c : List Str) : Int × Obj :=
  -- the array of argument pointers
  if o1.malloc.1 = false then (0, o1.malloc.2.free 1)
  else if (dupArgs o1.malloc.2 c.length).1 < c.length then
    -- the array of argument pointers is not freed
    (0, ((dupArgs o1.malloc.2 c.length).2.free (dupArgs o1.malloc.2 c.length).1).free 1)
  else (1, install (dupArgs o1.malloc.2 c.length).2 old c)

-- models: vital/kwiversys/ProcessUNIX.c:401-492 (kwsysProcess_AddCommand)
def addCommand (o : Obj) (command : Option (List Str)) : Int × Obj :=
  match command with
  | none => (0, o)
  | some [] => (0, o)
  | some (c :: cs) =>
    -- the new array of command pointers
    if o.malloc.1 = false then (0, o.malloc.2)
    else if o.verbatim ≠ 0 then addVerbatim o.malloc.2 o.commands c
    else addCopied o.malloc.2 o.commands (c :: cs)

/-- The blocks of all command lines and of the array of command pointers. -/
def cmdTotal (cs : Option (List (List Str))) : Nat := ((cs.getD []).map cmdBlocks).sum + (if cs.isSome then 1 else 0)

/-- Free every command line and the array. -/
-- models: vital/kwiversys/ProcessUNIX.c:378-392
def dropCommands (o : Obj) : Obj :=
  { o with commands := none, live := o.live - cmdTotal o.commands }

-- models: vital/kwiversys/ProcessUNIX.c:371-398 (kwsysProcess_SetCommand)
def setCommand (o : Obj) (command : Option (List Str)) : Int × Obj :=
  match command with
  | some c => addCommand (dropCommands o) (some c)
  | none => (1, dropCommands o)

-- models: vital/kwiversys/ProcessUNIX.c:495-506 (kwsysProcess_SetTimeout); the double is a rational (a NaN, which switches the timeout off, is not modelled)
def setTimeout (o : Obj) (t : Rat) : Obj := { o with timeout := if t < 0 then 0 else t }

-- models: vital/kwiversys/ProcessUNIX.c:524-528
def dropDir (o : Obj) : Obj := { o with workDir := none, live := o.live - (if o.workDir.isSome then 1 else 0) }

-- models: vital/kwiversys/ProcessUNIX.c:509-540 (kwsysProcess_SetWorkingDirectory); the pointer comparison is that of two NULL pointers
def setWorkingDirectory (o : Obj) (dir : Option Str) : Int × Obj :=
  if o.workDir = dir then (1, o)
  else
    match dir with
    | none => (1, dropDir o)
    | some d => if (dropDir o).malloc.1 then (1, { (dropDir o).malloc.2 with workDir := some d }) else (0, (dropDir o).malloc.2)

/-- `SetPipeFile( cp, prPipe, 0 )`, the calls the other setters make: `*pfile` is 0 afterwards, so no further call. -/
-- models: vital/kwiversys/ProcessUNIX.c:557-561 and 570-571
def clearFile (o : Obj) (p : Pipe) : Obj :=
  (if (o.pipe p).file.isSome then o.free 1 else o).setPipe p { o.pipe p with file := none }

/-- `SetPipeShared( cp, prPipe, 0 )`: `shared` is 0, so no further call. -/
-- models: vital/kwiversys/ProcessUNIX.c:588-597
def clearShared (o : Obj) (p : Pipe) : Obj := o.setPipe p { o.pipe p with shared := false }

/-- `SetPipeNative( cp, prPipe, 0 )`: `p` is 0, so no further call. -/
-- models: vital/kwiversys/ProcessUNIX.c:627-631
def clearNative (o : Obj) (p : Pipe) : Obj := o.setPipe p { o.pipe p with native := (-1, -1) }

-- models: vital/kwiversys/ProcessUNIX.c:543-578 (kwsysProcess_SetPipeFile)
def setPipeFile (o : Obj) (prPipe : Int) (file : Option Str) : Int × Obj :=
  match pipeOf prPipe with
  | none => (0, o)
  | some p =>
    let o1 := clearFile o p
    match file with
    | none => (1, o1)
    | some f =>
      if o1.malloc.1 then
        let o2 := o1.malloc.2.setPipe p { o1.pipe p with file := some f }
        (1, clearShared (clearNative o2 p) p)
      else (0, o1.malloc.2)

-- models: vital/kwiversys/ProcessUNIX.c:581-605 (kwsysProcess_SetPipeShared)
def setPipeShared (o : Obj) (prPipe : Int) (shared : Int) : Obj :=
  match pipeOf prPipe with
  | none => o
  | some p =>
    let o1 := o.setPipe p { o.pipe p with shared := decide (shared ≠ 0) }
    if shared ≠ 0 then clearNative (clearFile o1 p) p else o1

-- models: vital/kwiversys/ProcessUNIX.c:608-643 (kwsysProcess_SetPipeNative)
def setPipeNative (o : Obj) (prPipe : Int) (d : Option (Int × Int)) : Obj :=
  match pipeOf prPipe with
  | none => o
  | some p =>
    match d with
    | some d => clearShared (clearFile (o.setPipe p { o.pipe p with native := d }) p) p
    | none => clearNative o p

-- models: vital/kwiversys/Process.h.in:191-198 (the option numbers) and ProcessUNIX.c:646-663 (kwsysProcess_GetOption)
def getOption (o : Obj) (id : Int) : Int :=
  if id = 1 then o.detach else if id = 2 then o.merge else if id = 3 then o.verbatim else if id = 4 then o.group else 0

-- models: vital/kwiversys/ProcessUNIX.c:666-683 (kwsysProcess_SetOption)
def setOption (o : Obj) (id value : Int) : Obj :=
  if id = 1 then { o with detach := value } else if id = 2 then { o with merge := value }
  else if id = 3 then { o with verbatim := value } else if id = 4 then { o with group := value } else o

/-- What is allocated after `Delete`. -/
-- models: vital/kwiversys/ProcessUNIX.c:332-368 (kwsysProcess_Delete) of an object that is not executing and never executed
def delete (o : Obj) : Int :=
  let o1 := (setCommand o none).2
  let o2 := (setWorkingDirectory o1 none).2
  let o3 := (setPipeFile o2 1 none).2
  let o4 := (setPipeFile o3 2 none).2
  let o5 := (setPipeFile o4 3 none).2
  (o5.free 1).live

/-- The configuration calls. -/
inductive Call where
  | setCommand (c : Option (List Str))
  | addCommand (c : Option (List Str))
  | setTimeout (t : Rat)
  | setWorkingDirectory (d : Option Str)
  | setPipeFile (prPipe : Int) (f : Option Str)
  | setPipeShared (prPipe shared : Int)
  | setPipeNative (prPipe : Int) (d : Option (Int × Int))
  | setOption (id value : Int)

/-- A call on an object; `none` for a call without result. -/
def call (o : Obj) : Call → Option Int × Obj
  | .setCommand c => (some (setCommand o c).1, (setCommand o c).2)
  | .addCommand c => (some (addCommand o c).1, (addCommand o c).2)
  | .setTimeout t => (none, setTimeout o t)
  | .setWorkingDirectory d => (some (setWorkingDirectory o d).1, (setWorkingDirectory o d).2)
  | .setPipeFile p f => (some (setPipeFile o p f).1, (setPipeFile o p f).2)
  | .setPipeShared p s => (none, setPipeShared o p s)
  | .setPipeNative p d => (none, setPipeNative o p d)
  | .setOption i v => (none, setOption o i v)

/-- An object after a sequence of calls, with the results of the calls. -/
def run : Obj → List Call → List (Option Int) × Obj
  | o, [] => ([], o)
  | o, c :: l => ((call o c).1 :: (run (call o c).2 l).1, (run (call o c).2 l).2)

/-! ### Specification -/

/-- Where a pipe of the child leads. -/
inductive Dest where
  /-- nowhere special: captured by this object (output) or closed (input) -/
  | plain
  | file (name : Str)
  | shared
  | native (r w : Int)
  deriving DecidableEq

/-- The destination of `p` after one call that answered `ok`. -/
def Dest.next (p : Pipe) (d : Dest) (ok : Bool) : Call → Dest
  | .setPipeFile q f =>
    if pipeOf q = some p then
      match f, ok with
      | some f, true => .file f
      | _, _ => (match d with | .file _ => .plain | d => d)
    else d
  | .setPipeShared q s => if pipeOf q = some p then (if s ≠ 0 then .shared else match d with | .shared => .plain | d => d) else d
  | .setPipeNative q n =>
    if pipeOf q = some p then
      match n with
      | some (r, w) => if r = -1 ∧ w = -1 then .plain else .native r w
      | none => (match d with | .native _ _ => .plain | d => d)
    else d
  | _ => d

/-- What the object is set to for pipe `p`: none of the three, or exactly one. -/
inductive Leads (c : PipeConf) : Dest → Prop
  | plain : c.file = none → c.shared = false → c.native = (-1, -1) → Leads c .plain
  | file (f : Str) : c.file = some f → c.shared = false → c.native = (-1, -1) → Leads c (.file f)
  | shared : c.file = none → c.shared = true → c.native = (-1, -1) → Leads c .shared
  | native (r w : Int) : c.file = none → c.shared = false → c.native = (r, w) → (r, w) ≠ (-1, -1) → Leads c (.native r w)

/-- A pipe leads to one destination at most. -/
theorem Leads.unique {c : PipeConf} {d e : Dest} (h : Leads c d) (h' : Leads c e) : d = e := by
  cases h <;> cases h' <;> simp_all
  all_goals omega

/-- The destination of a pipe after a history of calls with their results. -/
def destAfter (p : Pipe) : Dest → List Call → List (Option Int) → Dest
  | d, c :: l, r :: rs => destAfter p (d.next p (r != some 0) c) l rs
  | d, _, _ => d

def Dest.initial : Pipe → Dest
  | .stdin => .shared | _ => .plain

theorem malloc_pipe (o : Obj) (p : Pipe) : o.malloc.2.pipe p = o.pipe p := by
  unfold Obj.malloc; cases p <;> (split <;> rfl)

theorem pipe_setPipe (o : Obj) (p q : Pipe) (c : PipeConf) : (o.setPipe p c).pipe q = if p = q then c else o.pipe q := by
  cases p <;> cases q <;> rfl

theorem free_pipe (o : Obj) (n : Nat) (p : Pipe) : (o.free n).pipe p = o.pipe p := by cases p <;> rfl

theorem clearFile_pipe (o : Obj) (p q : Pipe) : (clearFile o p).pipe q = if p = q then { o.pipe p with file := none } else o.pipe q := by
  unfold clearFile
  rw [pipe_setPipe]
  split
  · rfl
  · split
    · exact free_pipe _ _ _
    · rfl

theorem dupArgs_pipe (n : Nat) : ∀ (o : Obj) (p : Pipe), (dupArgs o n).2.pipe p = o.pipe p := by
  induction n with
  | zero => intro o p; rfl
  | succ n ih =>
    intro o p
    unfold dupArgs
    split
    · rw [ih]; exact malloc_pipe o p
    · exact malloc_pipe o p

theorem parsedCommand_pipe (o : Obj) (l : Str) (p : Pipe) : (parsedCommand o l).2.pipe p = o.pipe p := by
  unfold parsedCommand
  split
  · cases p <;> rfl
  · split <;> (cases p <;> rfl)

theorem install_pipe (o : Obj) (old : Option (List (List Str))) (c : List Str) (p : Pipe) : (install o old c).pipe p = o.pipe p := by
  cases p <;> rfl

theorem addCommand_pipe (o : Obj) (c : Option (List Str)) (p : Pipe) : (addCommand o c).2.pipe p = o.pipe p := by
  unfold addCommand
  split
  · rfl
  · rfl
  · split
    · exact malloc_pipe o p
    · split
      · unfold addVerbatim
        split <;> simp [free_pipe, install_pipe, parsedCommand_pipe, malloc_pipe]
      · unfold addCopied
        split
        · simp [free_pipe, malloc_pipe]
        · split <;> simp [free_pipe, install_pipe, dupArgs_pipe, malloc_pipe]

theorem setCommand_pipe (o : Obj) (c : Option (List Str)) (p : Pipe) : (setCommand o c).2.pipe p = o.pipe p := by
  unfold setCommand
  cases c with
  | some c => rw [addCommand_pipe]; cases p <;> rfl
  | none => cases p <;> rfl

theorem dropDir_pipe (o : Obj) (p : Pipe) : (dropDir o).pipe p = o.pipe p := by cases p <;> rfl

theorem withDir_pipe (o : Obj) (d : Option Str) (p : Pipe) : Obj.pipe { o with workDir := d } p = o.pipe p := by cases p <;> rfl

theorem setWorkingDirectory_pipe (o : Obj) (d : Option Str) (p : Pipe) : (setWorkingDirectory o d).2.pipe p = o.pipe p := by
  unfold setWorkingDirectory
  split
  · rfl
  · split
    · exact dropDir_pipe o p
    · split
      · simp only [withDir_pipe, malloc_pipe, dropDir_pipe]
      · simp only [malloc_pipe, dropDir_pipe]

/-- One call moves the destination as specified. -/
theorem leads_call (o : Obj) (c : Call) (p : Pipe) (d : Dest) (h : Leads (o.pipe p) d) :
    Leads ((call o c).2.pipe p) (d.next p ((call o c).1 != some 0) c) := by
  cases c with
  | setCommand c => simp only [call, Dest.next, setCommand_pipe]; exact h
  | addCommand c => simp only [call, Dest.next, addCommand_pipe]; exact h
  | setTimeout t => cases p <;> exact h
  | setWorkingDirectory d => simp only [call, Dest.next, setWorkingDirectory_pipe]; exact h
  | setOption i v =>
    simp only [call, Dest.next]
    have : (setOption o i v).pipe p = o.pipe p := by unfold setOption; cases p <;> (split <;> [skip; split <;> [skip; split <;> [skip; split]]]) <;> rfl
    rw [this]; exact h
  | setPipeFile q f =>
    simp only [call, Dest.next]
    unfold setPipeFile
    cases hq : pipeOf q with
    | none => simpa using h
    | some q' =>
      simp only [Option.some.injEq]
      have hoff : ∀ d, Leads (o.pipe p) d → Leads { o.pipe p with file := none } (match d with | .file _ => .plain | d => d) := by
        intro d h
        cases h with
        | plain h1 h2 h3 => exact .plain rfl h2 h3
        | file f h1 h2 h3 => exact .plain rfl h2 h3
        | shared h1 h2 h3 => exact .shared rfl h2 h3
        | native r w h1 h2 h3 h4 => exact .native r w rfl h2 h3 h4
      cases f with
      | none =>
        simp only [clearFile_pipe]
        split
        · rename_i e; subst e; exact hoff d h
        · exact h
      | some f =>
        simp only
        cases hm : (clearFile o q').malloc.1 with
        | false =>
          simp only [Bool.false_eq_true, ↓reduceIte, malloc_pipe, clearFile_pipe, bne_self_eq_false]
          split
          · rename_i e; subst e; exact hoff d h
          · exact h
        | true =>
          simp only [↓reduceIte, clearShared, clearNative, pipe_setPipe, malloc_pipe, clearFile_pipe]
          by_cases e : q' = p
          · subst e
            simp only [↓reduceIte]
            exact .file f rfl rfl rfl
          · simpa [e] using h
  | setPipeShared q s =>
    simp only [call, Dest.next]
    unfold setPipeShared
    cases hq : pipeOf q with
    | none => simpa using h
    | some q' =>
      simp only [Option.some.injEq]
      by_cases hs : s = 0
      · subst hs
        simp only [ne_eq, not_true, decide_false, ↓reduceIte, pipe_setPipe]
        by_cases e : q' = p
        · subst e
          simp only [↓reduceIte]
          cases h with
          | plain h1 h2 h3 => exact .plain h1 rfl h3
          | file f h1 h2 h3 => exact .file f h1 rfl h3
          | shared h1 h2 h3 => exact .plain h1 rfl h3
          | native r w h1 h2 h3 h4 => exact .native r w h1 rfl h3 h4
        · simpa [e] using h
      · simp only [hs, ne_eq, not_false_eq_true, decide_true, ↓reduceIte, clearNative, pipe_setPipe, clearFile_pipe]
        by_cases e : q' = p
        · subst e
          simp only [↓reduceIte]
          exact .shared rfl rfl rfl
        · simpa [e] using h
  | setPipeNative q n =>
    simp only [call, Dest.next]
    unfold setPipeNative
    cases hq : pipeOf q with
    | none => simpa using h
    | some q' =>
      simp only [Option.some.injEq]
      cases n with
      | none =>
        simp only [clearNative, pipe_setPipe]
        by_cases e : q' = p
        · subst e
          simp only [↓reduceIte]
          cases h with
          | plain h1 h2 h3 => exact .plain h1 h2 rfl
          | file f h1 h2 h3 => exact .file f h1 h2 rfl
          | shared h1 h2 h3 => exact .shared h1 h2 rfl
          | native r w h1 h2 h3 h4 => exact .plain h1 h2 rfl
        · simpa [e] using h
      | some n =>
        obtain ⟨r, w⟩ := n
        simp only [clearShared, pipe_setPipe, clearFile_pipe]
        by_cases e : q' = p
        · subst e
          simp only [↓reduceIte]
          by_cases hn : r = -1 ∧ w = -1
          · simp only [hn, and_self, ↓reduceIte]
            exact .plain rfl rfl rfl
          · simp only [hn, ↓reduceIte]
            exact .native r w rfl rfl rfl (by simpa using hn)
        · simpa [e] using h

/-- **C191.** After every history of configuration calls on a new object, whatever allocations fail, each of the
    three pipes of the child has exactly one destination (file, shared, native or none of them), and it is the one of
    the last call that concerned this pipe. -/
theorem C191_pipe_destinations (mem : List Bool) (o : Obj) (hn : new mem = some o) (l : List Call) (p : Pipe) :
    Leads ((run o l).2.pipe p) (destAfter p (Dest.initial p) l (run o l).1) := by
  have h0 : Leads (o.pipe p) (Dest.initial p) := by
    unfold new at hn
    simp only at hn
    split at hn
    · cases hn
      rw [malloc_pipe]
      cases p
      · exact .shared rfl rfl rfl
      · exact .plain rfl rfl rfl
      · exact .plain rfl rfl rfl
    · cases hn
  generalize Dest.initial p = d at h0
  clear hn
  induction l generalizing o d with
  | nil => exact h0
  | cons c l ih => exact ih _ _ (leads_call o c p d h0)

/-- non-vacuity: file, then shared, then native, then a file again -/
example : ∃ o, new [] = some o ∧ (run o [.setPipeFile 2 (some (c!"a")), .setPipeShared 2 7, .setPipeNative 2 (some (5, 6)), .setPipeFile 2 (some (c!"b"))]).2.out = ⟨some (c!"b"), false, (-1, -1)⟩ :=
  ⟨_, rfl, by decide⟩

/-- non-vacuity: when the copy of the name cannot be allocated, the old file is lost and the pipe leads nowhere -/
example : ∃ o, new [true, true, false] = some o ∧ (run o [.setPipeFile 2 (some (c!"a")), .setPipeFile 2 (some (c!"b"))]).1 = [some 1, some 0] ∧
    (run o [.setPipeFile 2 (some (c!"a")), .setPipeFile 2 (some (c!"b"))]).2.out = ⟨none, false, (-1, -1)⟩ :=
  ⟨_, rfl, by decide, by decide⟩

/-! ### Commands and the other settings -/

/-- The configuration as the user sees it. -/
structure View where
  commands : List (List Str)
  timeout : Rat
  workDir : Option Str
  option : Int → Int

def Obj.view (o : Obj) : View := ⟨o.commands.getD [], o.timeout, o.workDir, getOption o⟩

/-- `a` is the command line given as `c`: the arguments themselves, or with option 3 (verbatim) the arguments that the
    text of the first one consists of (C146), of which there is at least one. -/
def Says (v : View) (c a : List Str) : Prop :=
  c ≠ [] ∧ a ≠ [] ∧ (v.option 3 = 0 → a = c) ∧
  (v.option 3 ≠ 0 → ∃ l : Command.Line, l.Ok ∧ some l.text = c.head? ∧ a = l.args.map Command.Arg.value)

/-- What one call with result `r` may do to the configuration. -/
def Follows (v : View) (r : Option Int) (c : Call) (v' : View) : Prop :=
  -- the command lines
  (match c with
    | .setCommand none => r = some 1 ∧ v'.commands = []
    | .setCommand (some c) => (r = some 1 ∧ ∃ a, Says v c a ∧ v'.commands = [a]) ∨ (r = some 0 ∧ v'.commands = [])
    | .addCommand none => r = some 0 ∧ v'.commands = v.commands
    | .addCommand (some c) => (r = some 1 ∧ ∃ a, Says v c a ∧ v'.commands = v.commands ++ [a]) ∨ (r = some 0 ∧ v'.commands = v.commands)
    | _ => v'.commands = v.commands) ∧
  -- the timeout: zero or less switches it off
  (v'.timeout = match c with | .setTimeout t => max t 0 | _ => v.timeout) ∧
  -- the working directory
  (match c with
    | .setWorkingDirectory d => (r = some 1 ∧ v'.workDir = d) ∨ (r = some 0 ∧ d ≠ none ∧ v'.workDir = none)
    | _ => v'.workDir = v.workDir) ∧
  -- the options Detach, MergeOutput, Verbatim, CreateProcessGroup
  (∀ i, v'.option i = match c with | .setOption j x => if i = j ∧ 1 ≤ i ∧ i ≤ 4 then x else v.option i | _ => v.option i)

/-- The text of a command line given to the parser is shorter than 1 GiB (C146). -/
def Call.Short : Call → Prop
  | .setCommand (some (c :: _)) => c.length < 2 ^ 30
  | .addCommand (some (c :: _)) => c.length < 2 ^ 30
  | _ => True

/-- A history: every call follows from the configuration before it. -/
inductive History : View → List (Option Int) → List Call → View → Prop
  | nil (v : View) : History v [] [] v
  | cons {v v' v'' : View} {r : Option Int} {rs : List (Option Int)} {c : Call} {l : List Call} :
      Follows v r c v' → History v' rs l v'' → History v (r :: rs) (c :: l) v''

/-- Everything but memory and commands. -/
def Obj.SameSettings (o o' : Obj) : Prop :=
  o'.timeout = o.timeout ∧ o'.workDir = o.workDir ∧ o'.detach = o.detach ∧ o'.merge = o.merge ∧ o'.verbatim = o.verbatim ∧ o'.group = o.group

theorem Obj.SameSettings.trans {a b c : Obj} (h : a.SameSettings b) (h' : b.SameSettings c) : a.SameSettings c := by
  obtain ⟨h1, h2, h3, h4, h5, h6⟩ := h
  obtain ⟨k1, k2, k3, k4, k5, k6⟩ := h'
  exact ⟨k1.trans h1, k2.trans h2, k3.trans h3, k4.trans h4, k5.trans h5, k6.trans h6⟩

theorem malloc_same (o : Obj) : o.SameSettings o.malloc.2 ∧ o.malloc.2.commands = o.commands := by
  unfold Obj.malloc; split <;> exact ⟨⟨rfl, rfl, rfl, rfl, rfl, rfl⟩, rfl⟩

theorem free_same (o : Obj) (n : Nat) : o.SameSettings (o.free n) ∧ (o.free n).commands = o.commands :=
  ⟨⟨rfl, rfl, rfl, rfl, rfl, rfl⟩, rfl⟩

theorem dupArgs_same (n : Nat) : ∀ o : Obj, o.SameSettings (dupArgs o n).2 ∧ (dupArgs o n).2.commands = o.commands := by
  induction n with
  | zero => intro o; exact ⟨⟨rfl, rfl, rfl, rfl, rfl, rfl⟩, rfl⟩
  | succ n ih =>
    intro o
    unfold dupArgs
    have hm := malloc_same o
    split
    · exact ⟨hm.1.trans (ih _).1, (ih _).2.trans hm.2⟩
    · exact hm

theorem parsedCommand_same (o : Obj) (l : Str) : o.SameSettings (parsedCommand o l).2 ∧ (parsedCommand o l).2.commands = o.commands := by
  unfold parsedCommand
  split
  · exact ⟨⟨rfl, rfl, rfl, rfl, rfl, rfl⟩, rfl⟩
  · split <;> exact ⟨⟨rfl, rfl, rfl, rfl, rfl, rfl⟩, rfl⟩

theorem parsedCommand_says (o : Obj) (s : Str) (hs : s.length < 2 ^ 30) (a : List Str) (h : (parsedCommand o s).1 = some a) :
    ∃ l : Command.Line, l.Ok ∧ l.text = s ∧ a = l.args.map Command.Arg.value := by
  obtain ⟨⟨l, hl, ht⟩, hp⟩ := Command.C146_parse s hs
  have hp := hp l hl ht
  refine ⟨l, hl, ht, ?_⟩
  unfold parsedCommand at h
  split at h
  · cases h
  · rw [hp] at h
    simp only [Option.some.injEq] at h
    rw [← h, List.map_map]
    apply List.map_congr_left
    intro x _
    simp

theorem addVerbatim_cases (o1 : Obj) (old : Option (List (List Str))) (s : Str) :
    ((addVerbatim o1 old s).1 = 1 ∧ ∃ a as, (parsedCommand o1 s).1 = some (a :: as) ∧ (addVerbatim o1 old s).2 = install (parsedCommand o1 s).2 old (a :: as)) ∨
    ((addVerbatim o1 old s).1 = 0 ∧ (addVerbatim o1 old s).2 = (parsedCommand o1 s).2.free 1) := by
  unfold addVerbatim
  split
  · exact .inr ⟨rfl, rfl⟩
  · exact .inr ⟨rfl, rfl⟩
  · rename_i a as h; exact .inl ⟨rfl, a, as, h, rfl⟩

theorem addCopied_cases (o1 : Obj) (old : Option (List (List Str))) (c : List Str) :
    ((addCopied o1 old c).1 = 1 ∧ (addCopied o1 old c).2 = install (dupArgs o1.malloc.2 c.length).2 old c) ∨
    ((addCopied o1 old c).1 = 0 ∧ o1.SameSettings (addCopied o1 old c).2 ∧ (addCopied o1 old c).2.commands = o1.commands) := by
  have hm := malloc_same o1
  have hd := dupArgs_same c.length o1.malloc.2
  unfold addCopied
  split
  · exact .inr ⟨rfl, hm.1.trans (free_same _ _).1, hm.2⟩
  · split
    · exact .inr ⟨rfl, hm.1.trans (hd.1.trans ((free_same _ _).1.trans (free_same _ _).1)), hd.2.trans hm.2⟩
    · exact .inl ⟨rfl, rfl⟩

theorem install_same (o : Obj) (old : Option (List (List Str))) (c : List Str) : o.SameSettings (install o old c) ∧ (install o old c).commands = some (old.getD [] ++ [c]) :=
  ⟨⟨rfl, rfl, rfl, rfl, rfl, rfl⟩, rfl⟩

theorem addCommand_follows (o : Obj) (c : Option (List Str)) (hs : ∀ x xs, c = some (x :: xs) → x.length < 2 ^ 30) :
    o.SameSettings (addCommand o c).2 ∧
    (((addCommand o c).1 = 1 ∧ ∃ x xs a, c = some (x :: xs) ∧ Says o.view (x :: xs) a ∧ (addCommand o c).2.commands = some (o.commands.getD [] ++ [a])) ∨
     ((addCommand o c).1 = 0 ∧ (addCommand o c).2.commands = o.commands)) := by
  have hm := malloc_same o
  match c with
  | none => exact ⟨⟨rfl, rfl, rfl, rfl, rfl, rfl⟩, .inr ⟨rfl, rfl⟩⟩
  | some [] => exact ⟨⟨rfl, rfl, rfl, rfl, rfl, rfl⟩, .inr ⟨rfl, rfl⟩⟩
  | some (x :: xs) =>
    unfold addCommand
    simp only
    split
    · exact ⟨hm.1, .inr ⟨rfl, hm.2⟩⟩
    · split
      · rename_i hv
        have hp := parsedCommand_same o.malloc.2 x
        rcases addVerbatim_cases o.malloc.2 o.commands x with ⟨h1, a, as, h2, h3⟩ | ⟨h1, h2⟩
        · rw [h3]
          refine ⟨hm.1.trans (hp.1.trans (install_same _ _ _).1), .inl ⟨h1, x, xs, a :: as, rfl, ?_, (install_same _ _ _).2⟩⟩
          obtain ⟨l, hl, ht, ha⟩ := parsedCommand_says _ x (hs x xs rfl) _ h2
          refine ⟨by simp, by simp, fun h => absurd h hv, fun _ => ⟨l, hl, by simp [ht], ha⟩⟩
        · rw [h2]
          exact ⟨hm.1.trans (hp.1.trans (free_same _ _).1), .inr ⟨h1, hp.2.trans hm.2⟩⟩
      · rename_i hv
        have hv : o.verbatim = 0 := by simpa using hv
        have hd := dupArgs_same (x :: xs).length o.malloc.2.malloc.2
        have hm2 := malloc_same o.malloc.2
        rcases addCopied_cases o.malloc.2 o.commands (x :: xs) with ⟨h1, h2⟩ | ⟨h1, h2, h3⟩
        · rw [h2]
          exact ⟨hm.1.trans (hm2.1.trans (hd.1.trans (install_same _ _ _).1)), .inl ⟨h1, x, xs, x :: xs, rfl, ⟨by simp, by simp, fun _ => rfl, fun h => absurd hv h⟩, (install_same _ _ _).2⟩⟩
        · exact ⟨hm.1.trans h2, .inr ⟨h1, h3.trans hm.2⟩⟩

theorem view_of_same {o o' : Obj} (h : o.SameSettings o') : o'.view.timeout = o.view.timeout ∧ o'.view.workDir = o.view.workDir ∧ ∀ i, o'.view.option i = o.view.option i := by
  obtain ⟨h1, h2, h3, h4, h5, h6⟩ := h
  refine ⟨h1, h2, fun i => ?_⟩
  simp [Obj.view, getOption, h3, h4, h5, h6]

theorem setPipe_same (o : Obj) (p : Pipe) (c : PipeConf) : o.SameSettings (o.setPipe p c) ∧ (o.setPipe p c).commands = o.commands := by
  cases p <;> exact ⟨⟨rfl, rfl, rfl, rfl, rfl, rfl⟩, rfl⟩

theorem clearFile_same (o : Obj) (p : Pipe) : o.SameSettings (clearFile o p) ∧ (clearFile o p).commands = o.commands := by
  unfold clearFile
  split
  · exact ⟨(free_same o 1).1.trans (setPipe_same _ _ _).1, (setPipe_same _ _ _).2⟩
  · exact setPipe_same _ _ _

theorem setPipeFile_same (o : Obj) (q : Int) (f : Option Str) : o.SameSettings (setPipeFile o q f).2 ∧ (setPipeFile o q f).2.commands = o.commands := by
  unfold setPipeFile
  split
  · exact ⟨⟨rfl, rfl, rfl, rfl, rfl, rfl⟩, rfl⟩
  · rename_i p _
    have hc := clearFile_same o p
    have hm := malloc_same (clearFile o p)
    split
    · exact hc
    · simp only
      split
      · refine ⟨hc.1.trans (hm.1.trans ((setPipe_same _ _ _).1.trans ((setPipe_same _ _ _).1.trans (setPipe_same _ _ _).1))), ?_⟩
        unfold clearShared clearNative
        simp only [(setPipe_same _ _ _).2, hm.2, hc.2]
      · exact ⟨hc.1.trans hm.1, hm.2.trans hc.2⟩

theorem setPipeShared_same (o : Obj) (q s : Int) : o.SameSettings (setPipeShared o q s) ∧ (setPipeShared o q s).commands = o.commands := by
  unfold setPipeShared
  split
  · exact ⟨⟨rfl, rfl, rfl, rfl, rfl, rfl⟩, rfl⟩
  · simp only
    split
    · refine ⟨(setPipe_same _ _ _).1.trans ((clearFile_same _ _).1.trans (setPipe_same _ _ _).1), ?_⟩
      unfold clearNative
      simp only [(setPipe_same _ _ _).2, (clearFile_same _ _).2]
    · exact setPipe_same _ _ _

theorem setPipeNative_same (o : Obj) (q : Int) (d : Option (Int × Int)) : o.SameSettings (setPipeNative o q d) ∧ (setPipeNative o q d).commands = o.commands := by
  unfold setPipeNative
  split
  · exact ⟨⟨rfl, rfl, rfl, rfl, rfl, rfl⟩, rfl⟩
  · split
    · refine ⟨(setPipe_same _ _ _).1.trans ((clearFile_same _ _).1.trans (setPipe_same _ _ _).1), ?_⟩
      unfold clearShared
      simp only [(setPipe_same _ _ _).2, (clearFile_same _ _).2]
    · exact setPipe_same _ _ _

theorem call_follows (o : Obj) (c : Call) (hs : c.Short) : Follows o.view (call o c).1 c (call o c).2.view := by
  have same : ∀ o' : Obj, o.SameSettings o' ∧ o'.commands = o.commands →
      o'.view.commands = o.view.commands ∧ o'.view.timeout = o.view.timeout ∧ o'.view.workDir = o.view.workDir ∧ ∀ i, o'.view.option i = o.view.option i :=
    fun o' h => ⟨by simp [Obj.view, h.2], view_of_same h.1⟩
  cases c with
  | setCommand c =>
    have hd : o.SameSettings (dropCommands o) := ⟨rfl, rfl, rfl, rfl, rfl, rfl⟩
    cases c with
    | none =>
      obtain ⟨h1, h2, h3⟩ := view_of_same hd
      exact ⟨⟨rfl, rfl⟩, h1, h2, h3⟩
    | some c =>
      have hs' : ∀ x xs, (some c : Option (List Str)) = some (x :: xs) → x.length < 2 ^ 30 := by
        intro x xs e; cases e; exact hs
      obtain ⟨h, hc⟩ := addCommand_follows (dropCommands o) (some c) hs'
      obtain ⟨h1, h2, h3⟩ := view_of_same (hd.trans h)
      refine ⟨?_, h1, h2, h3⟩
      rcases hc with ⟨e1, x, xs, a, e2, e3, e4⟩ | ⟨e1, e2⟩
      · cases e2
        refine .inl ⟨by simpa [call, setCommand] using e1, a, ?_, congrArg (·.getD []) e4⟩
        have hv := view_of_same hd
        obtain ⟨g1, g2, g3, g4⟩ := e3
        exact ⟨g1, g2, fun h => g3 ((hv.2.2 3).trans h), fun h => g4 fun h' => h ((hv.2.2 3).symm.trans h')⟩
      · exact .inr ⟨by simpa [call, setCommand] using e1, congrArg (·.getD []) e2⟩
  | addCommand c =>
    have hs' : ∀ x xs, c = some (x :: xs) → x.length < 2 ^ 30 := by
      intro x xs e; subst e; exact hs
    obtain ⟨h, hc⟩ := addCommand_follows o c hs'
    obtain ⟨h1, h2, h3⟩ := view_of_same h
    refine ⟨?_, h1, h2, h3⟩
    cases c with
    | none => exact ⟨rfl, rfl⟩
    | some c =>
      rcases hc with ⟨e1, x, xs, a, e2, e3, e4⟩ | ⟨e1, e2⟩
      · cases e2
        exact .inl ⟨by simpa [call] using e1, a, e3, by simp [call, Obj.view, e4]⟩
      · exact .inr ⟨by simpa [call] using e1, by simp [call, Obj.view, e2]⟩
  | setTimeout t =>
    refine ⟨rfl, ?_, rfl, fun i => rfl⟩
    simp only [call, setTimeout, Obj.view]
    split
    · rename_i h; exact (max_eq_right (le_of_lt h)).symm
    · rename_i h; exact (max_eq_left (not_lt.1 h)).symm
  | setWorkingDirectory d =>
    simp only [call]
    unfold setWorkingDirectory
    split
    · rename_i h
      exact ⟨rfl, rfl, .inl ⟨rfl, h⟩, fun i => rfl⟩
    · split
      · exact ⟨rfl, rfl, .inl ⟨rfl, rfl⟩, fun i => rfl⟩
      · obtain ⟨⟨m1, m2, m3, m4, m5, m6⟩, m7⟩ := malloc_same (dropDir o)
        have hopt : ∀ i, getOption (dropDir o).malloc.2 i = getOption o i := by
          intro i; unfold getOption; rw [m3, m4, m5, m6]; rfl
        split
        · exact ⟨congrArg (·.getD []) m7, m1, .inl ⟨rfl, rfl⟩, hopt⟩
        · exact ⟨congrArg (·.getD []) m7, m1, .inr ⟨rfl, by simp, m2⟩, hopt⟩
  | setPipeFile q f => exact same _ (setPipeFile_same o q f)
  | setPipeShared q s => exact same _ (setPipeShared_same o q s)
  | setPipeNative q d => exact same _ (setPipeNative_same o q d)
  | setOption j x =>
    simp only [call]
    unfold setOption Follows
    simp only
    split <;> [skip; split <;> [skip; split <;> [skip; split]]] <;> refine ⟨rfl, rfl, rfl, fun i => ?_⟩ <;> simp only [Obj.view, getOption]
    · rename_i h; subst h; by_cases e : i = 1 <;> simp [e]
    · rename_i h1 h; subst h; by_cases e : i = 2 <;> simp [e]
    · rename_i h1 h2 h; subst h; by_cases e : i = 3 <;> simp [e]
    · rename_i h1 h2 h3 h; subst h; by_cases e : i = 4 <;> simp [e]
    · rename_i h1 h2 h3 h4
      have : ¬ (i = j ∧ 1 ≤ i ∧ i ≤ 4) := by omega
      simp [this]

/-- **C192.** After every history of configuration calls on a new object, whatever allocations fail: the command lines are
    exactly those that `AddCommand` has accepted since the last `SetCommand`, copied argument for argument (or split into
    their words, in the verbatim mode); a refused `AddCommand` changes no command; timeout, working directory and options are
    those of the last call that set them. -/
theorem C192_configuration (mem : List Bool) (o : Obj) (hn : new mem = some o) (l : List Call) (hl : ∀ c ∈ l, c.Short) :
    o.view.commands = [] ∧ o.view.timeout = 0 ∧ o.view.workDir = none ∧ (∀ i, o.view.option i = 0) ∧ History o.view (run o l).1 l (run o l).2.view := by
  have hh : ∀ (l : List Call) (o : Obj), (∀ c ∈ l, c.Short) → History o.view (run o l).1 l (run o l).2.view := by
    intro l
    induction l with
    | nil => intro o _; exact .nil _
    | cons c l ih => intro o hl; exact .cons (call_follows o c (hl c (by simp))) (ih _ fun c hc => hl c (by simp [hc]))
  have h0 := hh l o hl
  unfold new at hn
  simp only at hn
  split at hn
  · cases hn
    refine ⟨?_, ?_, ?_, ?_, h0⟩
    · simp [Obj.view, (malloc_same _).2]
    · simp [Obj.view, (malloc_same _).1.1]
    · simp [Obj.view, (malloc_same _).1.2.1]
    · intro i
      obtain ⟨⟨m1, m2, m3, m4, m5, m6⟩, m7⟩ := malloc_same (⟨none, 0, none, ⟨none, true, (-1, -1)⟩, ⟨none, false, (-1, -1)⟩, ⟨none, false, (-1, -1)⟩, 0, 0, 0, 0, mem, 0⟩ : Obj)
      simp [Obj.view, getOption, m3, m4, m5, m6]
  · cases hn

theorem malloc_true (o : Obj) (h : ∀ b ∈ o.mem, b = true) : o.malloc.1 = true ∧ (∀ b ∈ o.malloc.2.mem, b = true) ∧ o.malloc.2.live = o.live + 1 := by
  unfold Obj.malloc
  split
  · exact ⟨rfl, h, rfl⟩
  · rename_i m hm
    rw [hm] at h
    exact ⟨rfl, fun b hb => h b (by simp [hb]), rfl⟩
  · rename_i m hm
    rw [hm] at h
    have := h false (by simp)
    cases this

theorem dupArgs_true (n : Nat) : ∀ o : Obj, (∀ b ∈ o.mem, b = true) → (dupArgs o n).1 = n ∧ (∀ b ∈ (dupArgs o n).2.mem, b = true) ∧ (dupArgs o n).2.live = o.live + n := by
  induction n with
  | zero => intro o h; exact ⟨rfl, h, by simp [dupArgs]⟩
  | succ n ih =>
    intro o h
    obtain ⟨h1, h2, h3⟩ := malloc_true o h
    obtain ⟨k1, k2, k3⟩ := ih _ h2
    unfold dupArgs
    simp only [h1, ↓reduceIte]
    exact ⟨by rw [k1], k2, by rw [k3, h3]; push_cast; omega⟩

/-- **C192.** With enough memory, a command line is accepted as soon as it has a word. -/
theorem C192_accepted (o : Obj) (hm : ∀ b ∈ o.mem, b = true) (c : Str) (cs : List Str) (hs : c.length < 2 ^ 30)
    (hw : o.view.option 3 ≠ 0 → ∃ ch ∈ c, isSpace ch = false ∧ ch ≠ '\\') : (addCommand o (some (c :: cs))).1 = 1 := by
  obtain ⟨h1, h2, h3⟩ := malloc_true o hm
  unfold addCommand
  simp only [h1, Bool.true_eq_false, ↓reduceIte]
  split
  · rename_i hv
    obtain ⟨ch, hch, hsp, hbs⟩ := hw hv
    obtain ⟨⟨l, hl, ht⟩, hp⟩ := Command.C146_parse c hs
    have hp := hp l hl ht
    have hpc : (parsedCommand o.malloc.2 c).1 = some (l.args.map Command.Arg.value) := by
      unfold parsedCommand
      split
      · rename_i m hm'
        rw [hm'] at h2
        have := h2 false (by simp)
        cases this
      · rw [hp]
        simp only [Option.some.injEq, List.map_map]
        apply List.map_congr_left
        intro x _
        simp
    have hne : l.args ≠ [] := by
      intro e
      rw [← ht] at hch
      have : ch ∈ l.space ++ (if l.backslash then ['\\'] else []) := by simpa [Command.Line.text, e] using hch
      rcases List.mem_append.1 this with h | h
      · have := hl.space ch h; rw [hsp] at this; cases this
      · split at h
        · simp at h; exact hbs h
        · cases h
    unfold addVerbatim
    rw [hpc]
    cases ha : l.args with
    | nil => exact absurd ha hne
    | cons a as => simp
  · obtain ⟨k1, k2, k3⟩ := malloc_true _ h2
    obtain ⟨j1, j2, j3⟩ := dupArgs_true (c :: cs).length _ k2
    unfold addCopied
    rw [j1]
    simp [k1]

/-- non-vacuity: two commands, one of them verbatim, and a refused one -/
example : ∃ o, new [] = some o ∧ (run o [.addCommand (some [(c!"ls"), (c!"-l")]), .setOption 3 1, .addCommand (some [(c!"grep 'a b'")]), .addCommand (some []), .setTimeout (-3)]).1 = [some 1, none, some 1, some 0, none] ∧
    (run o [.addCommand (some [(c!"ls"), (c!"-l")]), .setOption 3 1, .addCommand (some [(c!"grep 'a b'")]), .addCommand (some []), .setTimeout (-3)]).2.view.commands = [[(c!"ls"), (c!"-l")], [(c!"grep"), (c!"a b")]] :=
  ⟨_, rfl, by decide +kernel, by decide +kernel⟩

/-! ### Memory -/

def PipeConf.blocks (c : PipeConf) : Int := if c.file.isSome then 1 else 0

def dirBlocks (d : Option Str) : Int := if d.isSome then 1 else 0

/-- The blocks an object refers to, itself included. -/
def Obj.owned (o : Obj) : Int :=
  1 + (cmdTotal o.commands : Int) + dirBlocks o.workDir +
    o.inp.blocks + o.out.blocks + o.err.blocks

theorem malloc_spec (o : Obj) : ∃ m, o.malloc.2 = { o with mem := m, live := o.live + (if o.malloc.1 then 1 else 0) } := by
  unfold Obj.malloc
  split
  · exact ⟨o.mem, rfl⟩
  · rename_i m _; exact ⟨m, rfl⟩
  · rename_i m _; exact ⟨m, by simp⟩

theorem dupArgs_spec (n : Nat) : ∀ o : Obj, ∃ m, (dupArgs o n).2 = { o with mem := m, live := o.live + (dupArgs o n).1 } := by
  induction n with
  | zero => intro o; exact ⟨o.mem, by simp [dupArgs]⟩
  | succ n ih =>
    intro o
    obtain ⟨m, hm⟩ := malloc_spec o
    unfold dupArgs
    cases h1 : o.malloc.1 with
    | false =>
      rw [h1] at hm
      exact ⟨m, by simp [hm]⟩
    | true =>
      rw [h1] at hm
      obtain ⟨m', hm'⟩ := ih o.malloc.2
      refine ⟨m', ?_⟩
      simp only [↓reduceIte]
      rw [hm']
      rw [hm]
      simp only [↓reduceIte]
      congr 1
      push_cast
      omega

theorem parsedCommand_spec (o : Obj) (s : Str) : ∃ m, (parsedCommand o s).2 =
    { o with mem := m, live := o.live + (match (parsedCommand o s).1 with | none => 0 | some a => ((a.length + 1 : Nat) : Int)) } := by
  unfold parsedCommand
  split
  · rename_i m _; exact ⟨m, by simp⟩
  · split
    · exact ⟨_, by simp only [List.length_map]; rfl⟩
    · exact ⟨_, by simp; rfl⟩

theorem cmdTotal_none : cmdTotal none = 0 := rfl

theorem sum_append_one (l : List (List Str)) (c : List Str) : ((l ++ [c]).map cmdBlocks).sum = (l.map cmdBlocks).sum + (c.length + 1) := by
  simp [cmdBlocks]

/-- The memory an `AddCommand` loses, if any. -/
theorem addCommand_owned (o : Obj) (c : Option (List Str)) :
    (addCommand o c).2.live - (addCommand o c).2.owned = o.live - o.owned ∨
    ((addCommand o c).1 = 0 ∧ (addCommand o c).2.live - (addCommand o c).2.owned = o.live - o.owned + 1 ∧
      ∃ x xs, c = some (x :: xs) ∧ (o.verbatim ≠ 0 → (parsedCommand o.malloc.2 x).1 = some []) ∧
        (o.verbatim = 0 → (dupArgs o.malloc.2.malloc.2 (xs.length + 1)).1 < xs.length + 1)) := by
  match c with
  | none => exact .inl rfl
  | some [] => exact .inl rfl
  | some (x :: xs) =>
    obtain ⟨m, hm⟩ := malloc_spec o
    unfold addCommand
    simp only
    cases h1 : o.malloc.1 with
    | false =>
      left
      rw [h1] at hm
      simp only [↓reduceIte]
      rw [hm]
      simp [Obj.owned]
    | true =>
      rw [h1] at hm
      simp only [Bool.true_eq_false, ↓reduceIte]
      split
      · rename_i hv
        obtain ⟨m2, hp⟩ := parsedCommand_spec o.malloc.2 x
        unfold addVerbatim
        split
        · rename_i he
          left
          rw [he] at hp
          rw [hp, hm]
          simp [Obj.owned, Obj.free]
        · rename_i he
          right
          rw [he] at hp
          refine ⟨rfl, ?_, x, xs, rfl, fun _ => he, fun h => absurd h hv⟩
          rw [hp, hm]
          simp [Obj.owned, Obj.free]
          omega
        · rename_i a as he
          left
          rw [he] at hp
          rw [hp, hm]
          simp only [install, Obj.owned, cmdTotal, Option.getD_some, Option.isSome_some, ↓reduceIte, sum_append_one]
          cases o.commands <;> simp <;> omega
      · rename_i hv
        have hv : o.verbatim = 0 := by simpa using hv
        obtain ⟨m2, hm2⟩ := malloc_spec o.malloc.2
        unfold addCopied
        cases h2 : o.malloc.2.malloc.1 with
        | false =>
          left
          rw [h2] at hm2
          simp only [↓reduceIte]
          rw [hm2, hm]
          simp [Obj.owned, Obj.free]
        | true =>
          rw [h2] at hm2
          simp only [Bool.true_eq_false, ↓reduceIte]
          obtain ⟨m3, hd⟩ := dupArgs_spec (x :: xs).length o.malloc.2.malloc.2
          split
          · rename_i hlt
            right
            refine ⟨rfl, ?_, x, xs, rfl, fun h => absurd hv h, fun _ => by simpa using hlt⟩
            generalize hk : (dupArgs o.malloc.2.malloc.2 (x :: xs).length).1 = k at hd hlt ⊢
            rw [hd, hm2, hm]
            simp [Obj.owned, Obj.free]
            omega
          · rename_i hlt
            have hk : (dupArgs o.malloc.2.malloc.2 (x :: xs).length).1 = (x :: xs).length := by
              have : ∀ (n : Nat) (o : Obj), (dupArgs o n).1 ≤ n := by
                intro n
                induction n with
                | zero => intro o; simp [dupArgs]
                | succ n ih => intro o; unfold dupArgs; split; · have := ih o.malloc.2; simp; exact this
                               · simp
              have := this (x :: xs).length o.malloc.2.malloc.2
              omega
            left
            rw [hk] at hd
            rw [hd, hm2, hm]
            simp only [install, Obj.owned, cmdTotal, Option.getD_some, Option.isSome_some, ↓reduceIte, sum_append_one]
            cases o.commands <;> simp <;> omega

theorem dropCommands_owned (o : Obj) : (dropCommands o).live - (dropCommands o).owned = o.live - o.owned := by
  simp only [dropCommands, Obj.owned]
  rw [cmdTotal_none]
  omega

theorem owned_setPipe (o : Obj) (p : Pipe) (c : PipeConf) : (o.setPipe p c).owned = o.owned - (o.pipe p).blocks + c.blocks := by
  simp only [Obj.owned]
  cases p <;> simp only [Obj.setPipe, Obj.pipe] <;>
    omega

theorem live_setPipe (o : Obj) (p : Pipe) (c : PipeConf) : (o.setPipe p c).live = o.live := by cases p <;> rfl

theorem clearFile_owned (o : Obj) (p : Pipe) : (clearFile o p).live - (clearFile o p).owned = o.live - o.owned := by
  unfold clearFile
  rw [owned_setPipe, live_setPipe]
  have hf : (PipeConf.blocks { o.pipe p with file := none }) = 0 := rfl
  split
  · rename_i h
    have hb : (o.pipe p).blocks = 1 := by simp [PipeConf.blocks, h]
    have : (o.free 1).owned = o.owned := rfl
    rw [free_pipe, this, hb, hf]
    simp only [Obj.free]
    omega
  · rename_i h
    have hb : (o.pipe p).blocks = 0 := by simp [PipeConf.blocks, h]
    rw [hb, hf]
    omega

theorem keepFile_owned (o : Obj) (p : Pipe) (b : Bool) (n : Int × Int) :
    (o.setPipe p ⟨(o.pipe p).file, b, n⟩).live - (o.setPipe p ⟨(o.pipe p).file, b, n⟩).owned = o.live - o.owned := by
  rw [owned_setPipe, live_setPipe]
  have : PipeConf.blocks ⟨(o.pipe p).file, b, n⟩ = (o.pipe p).blocks := rfl
  rw [this]
  omega

theorem setPipeFile_owned (o : Obj) (q : Int) (f : Option Str) : (setPipeFile o q f).2.live - (setPipeFile o q f).2.owned = o.live - o.owned := by
  unfold setPipeFile
  split
  · rfl
  · rename_i p _
    split
    · exact clearFile_owned o p
    · rename_i f
      obtain ⟨m, hm⟩ := malloc_spec (clearFile o p)
      have hc := clearFile_owned o p
      simp only
      cases h1 : (clearFile o p).malloc.1 with
      | false =>
        rw [h1] at hm
        simp only [Bool.false_eq_true, ↓reduceIte]
        rw [hm, ← hc]
        simp [Obj.owned]
      | true =>
        rw [h1] at hm
        simp only [↓reduceIte]
        unfold clearShared clearNative
        rw [keepFile_owned, keepFile_owned, owned_setPipe, live_setPipe, malloc_pipe]
        have hb : ((clearFile o p).pipe p).blocks = 0 := by rw [clearFile_pipe]; simp [PipeConf.blocks]
        have hb2 : PipeConf.blocks ⟨some f, ((clearFile o p).pipe p).shared, ((clearFile o p).pipe p).native⟩ = 1 := rfl
        rw [hb, hb2, hm, ← hc]
        simp only [Obj.owned, ↓reduceIte]
        omega

theorem dropDir_owned (o : Obj) : (dropDir o).live - (dropDir o).owned = o.live - o.owned := by
  simp only [dropDir, Obj.owned, dirBlocks]
  cases o.workDir <;> simp <;> omega

theorem setWorkingDirectory_owned (o : Obj) (d : Option Str) : (setWorkingDirectory o d).2.live - (setWorkingDirectory o d).2.owned = o.live - o.owned := by
  unfold setWorkingDirectory
  split
  · rfl
  · split
    · exact dropDir_owned o
    · rename_i d _
      obtain ⟨m, hm⟩ := malloc_spec (dropDir o)
      have hc := dropDir_owned o
      cases h1 : (dropDir o).malloc.1 with
      | false =>
        rw [h1] at hm
        simp only [Bool.false_eq_true, ↓reduceIte]
        rw [hm, ← hc]
        simp [Obj.owned]
      | true =>
        rw [h1] at hm
        simp only [↓reduceIte]
        rw [hm, ← hc]
        simp [Obj.owned, dropDir, dirBlocks]
        omega

/-- A verbatim line must have a word. -/
def Call.Fine (verbatim : Int) : Call → Prop
  | .setCommand (some (x :: _)) => verbatim ≠ 0 → ∀ a, Command.parseCommand x 0 = some (some a) → a ≠ []
  | .addCommand (some (x :: _)) => verbatim ≠ 0 → ∀ a, Command.parseCommand x 0 = some (some a) → a ≠ []
  | _ => True

theorem parsed_nil {o : Obj} {x : Str} (h : (parsedCommand o x).1 = some []) : Command.parseCommand x 0 = some (some []) := by
  unfold parsedCommand at h
  split at h
  · cases h
  · split at h
    · rename_i a ha
      simp at h
      rw [ha, h]
    · cases h

theorem call_owned (o : Obj) (c : Call) :
    o.live - o.owned ≤ (call o c).2.live - (call o c).2.owned ∧
    ((∀ b ∈ o.mem, b = true) → c.Fine o.verbatim → (call o c).2.live - (call o c).2.owned = o.live - o.owned) := by
  have same : ∀ {a b : Int}, a = b → b ≤ a ∧ ((∀ b ∈ o.mem, b = true) → c.Fine o.verbatim → a = b) := fun h => ⟨by omega, fun _ _ => h⟩
  cases c with
  | setTimeout t => exact same rfl
  | setOption i v =>
    apply same
    simp only [call, setOption]
    split <;> [skip; split <;> [skip; split <;> [skip; split]]] <;> rfl
  | setWorkingDirectory d => exact same (setWorkingDirectory_owned o d)
  | setPipeFile q f => exact same (setPipeFile_owned o q f)
  | setPipeShared q s =>
    apply same
    simp only [call]
    unfold setPipeShared
    split
    · rfl
    · simp only
      split
      · unfold clearNative
        rw [keepFile_owned, clearFile_owned, keepFile_owned]
      · rw [keepFile_owned]
  | setPipeNative q d =>
    apply same
    simp only [call]
    unfold setPipeNative
    split
    · rfl
    · split
      · unfold clearShared
        rw [keepFile_owned, clearFile_owned, keepFile_owned]
      · unfold clearNative
        rw [keepFile_owned]
  | addCommand c =>
    simp only [call]
    rcases addCommand_owned o c with h | ⟨h0, h, x, xs, rfl, h1, h2⟩
    · exact same h
    · refine ⟨by omega, fun hm hf => ?_⟩
      exfalso
      obtain ⟨k1, k2, k3⟩ := malloc_true o hm
      obtain ⟨j1, j2, j3⟩ := malloc_true _ k2
      by_cases hv : o.verbatim = 0
      · have := h2 hv
        rw [(dupArgs_true (xs.length + 1) _ j2).1] at this
        omega
      · exact hf hv [] (parsed_nil (h1 hv)) rfl
  | setCommand c =>
    have hd := dropCommands_owned o
    cases c with
    | none => exact same hd
    | some c =>
      simp only [call, setCommand]
      rw [← hd]
      rcases addCommand_owned (dropCommands o) (some c) with h | ⟨h0, h, x, xs, he, h1, h2⟩
      · exact ⟨by omega, fun _ _ => h⟩
      · refine ⟨by omega, fun hm hf => ?_⟩
        exfalso
        cases he
        have hm : ∀ b ∈ (dropCommands o).mem, b = true := hm
        obtain ⟨k1, k2, k3⟩ := malloc_true _ hm
        obtain ⟨j1, j2, j3⟩ := malloc_true _ k2
        by_cases hv : o.verbatim = 0
        · have := h2 hv
          rw [(dupArgs_true (xs.length + 1) _ j2).1] at this
          omega
        · exact hf hv [] (parsed_nil (h1 hv)) rfl

/-! The memory answers are used up from the front. -/

theorem malloc_mem (o : Obj) : ∀ b ∈ o.malloc.2.mem, b ∈ o.mem := by
  intro b hb
  unfold Obj.malloc at hb
  split at hb
  · exact hb
  · rename_i m hm; rw [hm]; exact List.mem_cons_of_mem _ hb
  · rename_i m hm; rw [hm]; exact List.mem_cons_of_mem _ hb

theorem dupArgs_mem (n : Nat) : ∀ o : Obj, ∀ b ∈ (dupArgs o n).2.mem, b ∈ o.mem := by
  induction n with
  | zero => intro o b hb; exact hb
  | succ n ih =>
    intro o b hb
    unfold dupArgs at hb
    split at hb
    · exact malloc_mem o b (ih _ b hb)
    · exact malloc_mem o b hb

theorem parsedCommand_mem (o : Obj) (s : Str) : ∀ b ∈ (parsedCommand o s).2.mem, b ∈ o.mem := by
  intro b hb
  unfold parsedCommand at hb
  split at hb
  · rename_i m hm; rw [hm]; exact List.mem_cons_of_mem _ hb
  · split at hb <;> exact List.mem_of_mem_drop hb

theorem addCommand_mem (o : Obj) (c : Option (List Str)) : ∀ b ∈ (addCommand o c).2.mem, b ∈ o.mem := by
  intro b hb
  match c, hb with
  | none, hb => exact hb
  | some [], hb => exact hb
  | some (x :: xs), hb =>
    unfold addCommand at hb
    simp only at hb
    split at hb
    · exact malloc_mem o b hb
    · apply malloc_mem o
      split at hb
      · apply parsedCommand_mem o.malloc.2 x
        unfold addVerbatim at hb
        split at hb <;> exact hb
      · unfold addCopied at hb
        split at hb
        · exact malloc_mem _ b hb
        · apply malloc_mem o.malloc.2
          apply dupArgs_mem (x :: xs).length
          split at hb <;> exact hb

theorem setPipe_mem (o : Obj) (p : Pipe) (c : PipeConf) : (o.setPipe p c).mem = o.mem := by cases p <;> rfl

theorem clearFile_mem (o : Obj) (p : Pipe) : (clearFile o p).mem = o.mem := by
  unfold clearFile; rw [setPipe_mem]; split <;> rfl

theorem call_mem (o : Obj) (c : Call) : ∀ b ∈ (call o c).2.mem, b ∈ o.mem := by
  intro b hb
  cases c with
  | setTimeout t => exact hb
  | setOption i v =>
    simp only [call, setOption] at hb
    split at hb
    · exact hb
    · split at hb
      · exact hb
      · split at hb
        · exact hb
        · split at hb <;> exact hb
  | setWorkingDirectory d =>
    simp only [call, setWorkingDirectory] at hb
    split at hb
    · exact hb
    · split at hb
      · exact hb
      · split at hb <;> exact malloc_mem (dropDir o) b hb
  | setPipeFile q f =>
    simp only [call, setPipeFile] at hb
    split at hb
    · exact hb
    · split at hb
      · rwa [clearFile_mem] at hb
      · split at hb
        · rw [clearShared, clearNative, setPipe_mem, setPipe_mem, setPipe_mem] at hb
          rw [← clearFile_mem]; exact malloc_mem _ b hb
        · rw [← clearFile_mem]; exact malloc_mem _ b hb
  | setPipeShared q s =>
    simp only [call, setPipeShared] at hb
    split at hb
    · exact hb
    · split at hb
      · rwa [clearNative, setPipe_mem, clearFile_mem, setPipe_mem] at hb
      · rwa [setPipe_mem] at hb
  | setPipeNative q d =>
    simp only [call, setPipeNative] at hb
    split at hb
    · exact hb
    · split at hb
      · rwa [clearShared, setPipe_mem, clearFile_mem, setPipe_mem] at hb
      · rwa [clearNative, setPipe_mem] at hb
  | addCommand c => exact addCommand_mem o c b hb
  | setCommand c =>
    cases c with
    | none => exact hb
    | some c => exact addCommand_mem (dropCommands o) (some c) b hb

theorem delete_eq (o : Obj) : delete o = o.live - o.owned := by
  unfold delete
  simp only
  have h1 : (setCommand o none).2.live - (setCommand o none).2.owned = o.live - o.owned := dropCommands_owned o
  rw [← h1]
  have c1 : (setCommand o none).2.commands = none := rfl
  generalize (setCommand o none).2 = o1 at c1 ⊢
  rw [← setWorkingDirectory_owned o1 none]
  have c2 : (setWorkingDirectory o1 none).2.commands = none ∧ (setWorkingDirectory o1 none).2.workDir = none := by
    unfold setWorkingDirectory
    split
    · rename_i h; exact ⟨c1, h⟩
    · exact ⟨c1, rfl⟩
  generalize (setWorkingDirectory o1 none).2 = o2 at c2 ⊢
  rw [← setPipeFile_owned o2 1 none, ← setPipeFile_owned (setPipeFile o2 1 none).2 2 none, ← setPipeFile_owned (setPipeFile (setPipeFile o2 1 none).2 2 none).2 3 none]
  have e : ∀ (o : Obj), (setPipeFile o 1 none).2 = clearFile o .stdin ∧ (setPipeFile o 2 none).2 = clearFile o .stdout ∧ (setPipeFile o 3 none).2 = clearFile o .stderr := fun o => ⟨rfl, rfl, rfl⟩
  rw [(e _).1, (e _).2.1, (e _).2.2]
  generalize ho : clearFile (clearFile (clearFile o2 .stdin) .stdout) .stderr = o3
  have p1 : ∀ p, (o3.pipe p).blocks = 0 := by
    intro p
    rw [← ho]
    cases p <;> simp [clearFile_pipe, PipeConf.blocks]
  have q1 : o3.commands = none := by rw [← ho]; simp only [(clearFile_same _ _).2, c2.1]
  have q2 : o3.workDir = none := by
    rw [← ho, (clearFile_same _ _).1.2.1, (clearFile_same _ _).1.2.1, (clearFile_same _ _).1.2.1, c2.2]
  have b1 := p1 .stdin
  have b2 := p1 .stdout
  have b3 := p1 .stderr
  simp only [Obj.pipe] at b1 b2 b3
  simp [Obj.free, Obj.owned, q1, q2, b1, b2, b3, cmdTotal, dirBlocks]

theorem new_owned {mem : List Bool} {o : Obj} (hn : new mem = some o) : o.live = o.owned := by
  unfold new at hn
  simp only at hn
  split at hn
  · rename_i h
    obtain ⟨m, hm⟩ := malloc_spec (⟨none, 0, none, ⟨none, true, (-1, -1)⟩, ⟨none, false, (-1, -1)⟩, ⟨none, false, (-1, -1)⟩, 0, 0, 0, 0, mem, 0⟩ : Obj)
    rw [h] at hm
    cases hn
    rw [hm]
    simp [Obj.owned, PipeConf.blocks, cmdTotal, dirBlocks]
  · cases hn

/-- The full claim of C193: after any history of configuration calls, `Delete` leaves nothing allocated. -/
def NothingLeft : Prop :=
  ∀ (mem : List Bool) (o : Obj), new mem = some o → ∀ l : List Call, delete (run o l).2 = 0

/-- **C193, refuted.** One verbatim command line of blanks only: `AddCommand` refuses it and loses the block the parser returned. -/
theorem C193_refuted : ¬ NothingLeft := by
  intro h
  have := h [] _ rfl [.setOption 3 1, .addCommand (some [(c!"  ")])]
  revert this
  decide +kernel

/-- The second way: the last `strdup` of a command fails and the array of its arguments is lost. -/
theorem C193_refuted_memory : ∃ (mem : List Bool) (o : Obj), new mem = some o ∧ (run o [.addCommand (some [(c!"ls"), (c!"-l")])]).1 = [some 0] ∧ delete (run o [.addCommand (some [(c!"ls"), (c!"-l")])]).2 = 1 :=
  ⟨[true, true, true, true, false], _, rfl, by decide +kernel, by decide +kernel⟩

/-- **C193, what holds for every history and every failing allocation:** nothing is freed that the object still refers to, and nothing twice
    (what is left is never negative). -/
theorem C193_never_too_much (mem : List Bool) (o : Obj) (hn : new mem = some o) (l : List Call) :
    (run o l).2.owned ≤ (run o l).2.live ∧ 0 ≤ delete (run o l).2 := by
  have h : ∀ (l : List Call) (o : Obj), o.live - o.owned ≤ (run o l).2.live - (run o l).2.owned := by
    intro l
    induction l with
    | nil => intro o; exact Int.le_refl _
    | cons c l ih => intro o; exact Int.le_trans (call_owned o c).1 (ih _)
  have h0 := new_owned hn
  have := h l o
  rw [delete_eq]
  omega

/-- **C193, partial.** If no allocation fails and every command line given in the verbatim mode has a word, the object refers to every block
    that is allocated, and `Delete` leaves nothing. -/
theorem C193_no_leak_partial (mem : List Bool) (hm : ∀ b ∈ mem, b = true) (o : Obj) (hn : new mem = some o) (l : List Call)
    (hf : ∀ pre c post, l = pre ++ c :: post → c.Fine (run o pre).2.verbatim) :
    (run o l).2.live = (run o l).2.owned ∧ delete (run o l).2 = 0 := by
  have h : ∀ (l : List Call) (o : Obj), (∀ b ∈ o.mem, b = true) → (∀ pre c post, l = pre ++ c :: post → c.Fine (run o pre).2.verbatim) →
      (run o l).2.live - (run o l).2.owned = o.live - o.owned := by
    intro l
    induction l with
    | nil => intro o _ _; rfl
    | cons c l ih =>
      intro o hm hf
      rw [← (call_owned o c).2 hm (hf [] c l rfl)]
      exact ih _ (fun b hb => hm b (call_mem o c b hb)) fun pre c' post e => hf (c :: pre) c' post (by rw [e]; rfl)
  have h0 := new_owned hn
  have hom : ∀ b ∈ o.mem, b = true := by
    unfold new at hn
    simp only at hn
    split at hn
    · cases hn
      exact fun b hb => hm b (malloc_mem _ b hb)
    · cases hn
  have := h l o hom hf
  rw [delete_eq]
  omega

/-- non-vacuity: a history with commands, a file, a directory; verbatim off -/
example : ∃ o, new [] = some o ∧ (∀ pre c post, [Call.addCommand (some [(c!"ls"), (c!"-l")]), .setPipeFile 2 (some (c!"f")), .setWorkingDirectory (some (c!"/"))] = pre ++ c :: post → c.Fine (run o pre).2.verbatim) ∧
    (run o [.addCommand (some [(c!"ls"), (c!"-l")]), .setPipeFile 2 (some (c!"f")), .setWorkingDirectory (some (c!"/"))]).2.live = 7 := by
  refine ⟨_, rfl, ?_, by decide⟩
  intro pre c post e
  match pre, e with
  | [], e =>
    simp only [List.nil_append, List.cons.injEq] at e
    obtain ⟨rfl, rfl⟩ := e
    intro h
    exact absurd rfl h
  | [_], e =>
    simp only [List.cons_append, List.nil_append, List.cons.injEq] at e
    obtain ⟨rfl, rfl, rfl⟩ := e
    trivial
  | [_, _], e =>
    simp only [List.cons_append, List.nil_append, List.cons.injEq] at e
    obtain ⟨rfl, rfl, rfl, rfl⟩ := e
    trivial
  | _ :: _ :: _ :: pre, e => simp at e

end Vital.Proc
