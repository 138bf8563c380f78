import Verif.Logger.Model
/-
  The adapter to log4cxx, vital/logger/log4cxx_factory.cxx; property C261.
  log4cxx itself is not part of the code; what the adapter uses of it is stated here: a logger for every name, kept for ever; a level of its own or
  none; the level in force is that of the nearest ancestor (names are split at dots) that has one, at the end that of the root, which always has one.
-/
namespace Vital.Log.Cxx
open Vital Vital.Log

/-- The levels of log4cxx. -/
inductive CLevel where
  | all | trace | debug | info | warn | error | fatal | off
  deriving DecidableEq

-- models: log4cxx::Level (the integers of the levels)
def CLevel.int : CLevel → Int
  | .all => -2147483648 | .trace => 5000 | .debug => 10000 | .info => 20000 | .warn => 30000 | .error => 40000 | .fatal => 50000 | .off => 2147483647

/-- A name of a category: the components between the dots, the last one first (so that the parent is the tail; `[]` is the root). -/
abbrev Cat := List Str

/-- A message that went through. -/
structure Event where
  cat : Cat
  level : CLevel
  msg : Str
  /-- file, method, line -/
  loc : Option (Str × Str × Int)
deriving DecidableEq

/-- The loggers of log4cxx: the level of the root, the levels of the others; what was written. -/
structure World where
  root : CLevel
  own : Cat → Option CLevel
  out : List Event

-- models: log4cxx Logger::getEffectiveLevel
def effective (w : World) : Cat → CLevel
  | [] => w.root
  | c :: p => match w.own (c :: p) with
    | some l => l
    | none => effective w p

-- models: log4cxx Logger::isFatalEnabled etc. (the threshold of the whole repository is left at ALL)
def allows (w : World) (c : Cat) (l : CLevel) : Bool := decide ((effective w c).int ≤ l.int)

-- models: log4cxx Logger::fatal etc. and Logger::log for a level that is not null
def emit (w : World) (c : Cat) (l : CLevel) (msg : Str) (loc : Option (Str × Str × Int)) : World :=
  if allows w c l then { w with out := w.out ++ [⟨c, l, msg, loc⟩] } else w

-- models: vital/logger/log4cxx_factory.cxx:78-105, 239-249, 263-273 (the switch over the levels; a null pointer for the others)
def toCxx : Level → Option CLevel
  | .trace => some .trace
  | .debug => some .debug
  | .info => some .info
  | .warn => some .warn
  | .error => some .error
  | .fatal => some .fatal
  | .none => none

-- models: vital/logger/log4cxx_factory.cxx:74-109 (set_level); for a null pointer log4cxx takes the level of its own away
def setLevel (w : World) (c : Cat) (l : Level) : World := { w with own := fun x => if x = c then toCxx l else w.own x }

-- models: vital/logger/log4cxx_factory.cxx:113-125 (get_level): the level of its own, not the one in force
def getLevel (w : World) (c : Cat) : Level := match w.own c with
  | some .trace => .trace
  | some .debug => .debug
  | some .info => .info
  | some .warn => .warn
  | some .error => .error
  | some .fatal => .fatal
  | some .all | some .off | none => .none

-- models: vital/logger/log4cxx_factory.cxx:66-71 (is_fatal_enabled etc.)
def isEnabled (w : World) (c : Cat) : Method → Bool
  | .fatal => allows w c .fatal
  | .error => allows w c .error
  | .warn => allows w c .warn
  | .info => allows w c .info
  | .debug => allows w c .debug
  | .trace => allows w c .trace

-- models: vital/logger/log4cxx_factory.cxx:129-231 (log_fatal etc., without and with a location)
def log (w : World) (c : Cat) (m : Method) (msg : Str) (loc : Option (Str × Str × Int)) : World := match m with
  | .fatal => emit w c .fatal msg loc
  | .error => emit w c .error msg loc
  | .warn => emit w c .warn msg loc
  | .info => emit w c .info msg loc
  | .debug => emit w c .debug msg loc
  | .trace => emit w c .trace msg loc

-- models: vital/logger/log4cxx_factory.cxx:235-277 (log_message, without and with a location): `none` is the use of a null pointer in log4cxx
def logMessage (w : World) (c : Cat) (l : Level) (msg : Str) (loc : Option (Str × Str × Int)) : Option World := (toCxx l).map (fun x => emit w c x msg loc)

/-! ### Histories: calls on handles; a handle is its name, since get_logger (vital/logger/log4cxx_factory.cxx:308-311) asks log4cxx for the logger of that name -/

inductive Call where
  | setLevel (c : Cat) (l : Level)
  | log (c : Cat) (m : Method) (msg : Str) (loc : Option (Str × Str × Int))
  | message (c : Cat) (l : Level) (msg : Str) (loc : Option (Str × Str × Int))

def step (w : World) : Call → Option World
  | .setLevel c l => some (setLevel w c l)
  | .log c m msg loc => some (log w c m msg loc)
  | .message c l msg loc => logMessage w c l msg loc

def run (w : World) : List Call → Option World
  | [] => some w
  | x :: l => (step w x).bind (fun w' => run w' l)

/-! ### Specification -/

/-- How severe a message of this method is: the order of vital's levels. -/
def rank : Method → Nat
  | .trace => 2 | .debug => 3 | .info => 4 | .warn => 5 | .error => 6 | .fatal => 7

/-- A level that names a severity. -/
def Named : Level → Prop
  | .none => False
  | _ => True

/-- The level last set for `c` by the calls, if it was set at all. -/
def lastSet (c : Cat) : List Call → Option Level
  | [] => none
  | .setLevel c' l :: rest => match lastSet c rest with
    | some x => some x
    | none => if c' = c then some l else none
  | _ :: rest => lastSet c rest

/-- The full statement: at all times get_level tells which messages go through. -/
def C261_statement : Prop := ∀ (w w' : World) (calls : List Call), w.own = (fun _ => none) → run w calls = some w' →
  ∀ (c : Cat) (m : Method), c ≠ [] → (isEnabled w' c m = true ↔ (getLevel w' c).code ≤ rank m)

/-- **C261** (refuted): a logger whose level was never set says NONE, which is below all, although it passes on only what the root allows. -/
theorem C261_refuted : ¬ C261_statement := by
  intro h
  have := h ⟨.warn, fun _ => none, []⟩ _ [] rfl rfl [c!"vital"] .debug (by decide)
  revert this
  decide +kernel

theorem run_own (c : Cat) (calls : List Call) : ∀ (w w' : World), run w calls = some w' →
    w'.own c = (match lastSet c calls with | some l => toCxx l | none => w.own c) ∧ w'.root = w.root := by
  have hemit : ∀ (w : World) c l msg loc, (emit w c l msg loc).own = w.own ∧ (emit w c l msg loc).root = w.root := by
    intro w c l msg loc; unfold emit; split <;> exact ⟨rfl, rfl⟩
  have hlog : ∀ (w : World) c m msg loc, (log w c m msg loc).own = w.own ∧ (log w c m msg loc).root = w.root := by
    intro w c m msg loc; cases m <;> exact hemit _ _ _ _ _
  induction calls with
  | nil => intro w w' h; cases h; exact ⟨rfl, rfl⟩
  | cons x l ih =>
    intro w w' h
    cases x with
    | setLevel c' lev =>
      obtain ⟨h1, h2⟩ := ih _ _ h
      refine ⟨?_, h2⟩
      rw [h1]
      simp only [lastSet]
      cases lastSet c l with
      | some y => rfl
      | none =>
        by_cases hc : c' = c
        · simp [hc, setLevel]
        · have hc' : ¬ c = c' := fun e => hc e.symm
          simp [hc, hc', setLevel]
    | log c' m msg loc =>
      obtain ⟨h1, h2⟩ := ih _ _ h
      rw [h1, h2, (hlog w c' m msg loc).1]
      exact ⟨rfl, (hlog w c' m msg loc).2⟩
    | message c' lev msg loc =>
      simp only [run, step, logMessage] at h
      cases ht : toCxx lev with
      | none => rw [ht] at h; cases h
      | some y =>
        rw [ht] at h
        obtain ⟨h1, h2⟩ := ih _ _ h
        rw [h1, h2, (hemit w c' y msg loc).1]
        exact ⟨rfl, (hemit w c' y msg loc).2⟩

/-- **C261** (what holds): after any calls, a logger whose level was last set to a named level says that level, and exactly the methods of that
severity or more are enabled, however many handles were used. -/
theorem C261_set_partial (w w' : World) (calls : List Call) (h : run w calls = some w') (c : Cat) (hc : c ≠ []) (l : Level) (hl : Named l)
    (hs : lastSet c calls = some l) : getLevel w' c = l ∧ ∀ m, (isEnabled w' c m = true ↔ l.code ≤ rank m) := by
  have h1 := (run_own c calls w w' h).1
  rw [hs] at h1
  simp only at h1
  cases c with
  | nil => exact absurd rfl hc
  | cons a p =>
    constructor
    · unfold getLevel
      rw [h1]
      cases l <;> first | (exact False.elim hl) | rfl
    · intro m
      cases l <;> first
        | (exact False.elim hl)
        | (simp only [toCxx] at h1; cases m <;> simp [isEnabled, allows, effective, h1, CLevel.int, rank, Level.code])

/-- **C261** (inheritance): a logger whose level was never set, or last set to NONE, lets through what its parent lets through. -/
theorem C261_inherits (w w' : World) (calls : List Call) (hw : w.own = fun _ => none) (h : run w calls = some w') (a : Str) (p : Cat)
    (hs : lastSet (a :: p) calls = none ∨ lastSet (a :: p) calls = some .none) :
    getLevel w' (a :: p) = .none ∧ ∀ m, isEnabled w' (a :: p) m = isEnabled w' p m := by
  have h1 := (run_own (a :: p) calls w w' h).1
  have h2 : w'.own (a :: p) = none := by
    rw [h1, hw]
    rcases hs with e | e <;> rw [e]
    rfl
  constructor
  · unfold getLevel; rw [h2]
  · intro m
    cases m <;> simp [isEnabled, allows, effective, h2]

/-- The level of log4cxx for a method. -/
def levelOf : Method → CLevel
  | .fatal => .fatal | .error => .error | .warn => .warn | .info => .info | .debug => .debug | .trace => .trace

def vitalLevel : Method → Level
  | .fatal => .fatal | .error => .error | .warn => .warn | .info => .info | .debug => .debug | .trace => .trace

/-- **C261** (messages): a message is written, once, with its level, text and place, exactly if its method is enabled; it changes nothing else; and
log_message with a named level does the same. -/
theorem C261_messages (w : World) (c : Cat) (m : Method) (msg : Str) (loc : Option (Str × Str × Int)) :
    log w c m msg loc = { w with out := w.out ++ (if isEnabled w c m = true then [⟨c, levelOf m, msg, loc⟩] else []) } ∧
    logMessage w c (vitalLevel m) msg loc = some (log w c m msg loc) := by
  have hlog : log w c m msg loc = emit w c (levelOf m) msg loc := by cases m <;> rfl
  have hen : isEnabled w c m = allows w c (levelOf m) := by cases m <;> rfl
  refine ⟨?_, by cases m <;> rfl⟩
  rw [hlog, hen, emit]
  cases allows w c (levelOf m) <;> simp

/-- **C261** (no null pointer): a run of calls ends well exactly if no message was logged with the level NONE. -/
theorem C261_defined (w : World) (calls : List Call) :
    (∃ w', run w calls = some w') ↔ ∀ x ∈ calls, ∀ c msg loc, x ≠ .message c .none msg loc := by
  induction calls generalizing w with
  | nil => simp [run]
  | cons x l ih =>
    cases x with
    | setLevel c lev => simp [run, step, ih]
    | log c m msg loc => simp [run, step, ih]
    | message c lev msg loc => cases lev <;> simp [run, step, logMessage, toCxx, ih]

example : (run ⟨.warn, fun _ => none, []⟩ [.setLevel [c!"vital"] .debug, .log [c!"io", c!"vital"] .debug (c!"a") none,
    .log [c!"other"] .debug (c!"b") none]).map (·.out) = some [⟨[c!"io", c!"vital"], .debug, c!"a", none⟩] := by decide +kernel

end Vital.Log.Cxx
