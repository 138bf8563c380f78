import Verif.Basic.Decimal
import Verif.Config.ParserLex
import Verif.Sys.PathsProps
/-
  Model of the default logger (vital/logger/default_logger.cxx, kwiver_logger.cxx, location_info.cxx) and properties C63, C98.

  The date text and the milliseconds are inputs.  The output stream is the list of its lines.
-/
namespace Vital.Log
open Vital Vital.Sys

/-! ### Levels -/

-- models: vital/logger/kwiver_logger.h:69-76 (log_level_t)
inductive Level
  | none | trace | debug | info | warn | error | fatal
  deriving DecidableEq

/-- The value of the enumerator. -/
-- models: vital/logger/kwiver_logger.h:69-76
def Level.code : Level → Nat
  | .none => 1 | .trace => 2 | .debug => 3 | .info => 4 | .warn => 5 | .error => 6 | .fatal => 7

-- models: vital/logger/kwiver_logger.cxx:69-84 (get_level_string)
def levelString : Level → Str
  | .trace => c!"TRACE" | .debug => c!"DEBUG" | .info => c!"INFO" | .warn => c!"WARN" | .error => c!"ERROR" | .fatal => c!"FATAL"
  | .none => c!"<unknown>"

/-- The six pairs of methods `is_x_enabled`, `log_x`. -/
inductive Method
  | fatal | error | warn | info | debug | trace
  deriving DecidableEq

-- models: vital/logger/default_logger.cxx:78-88
def isEnabled (cur : Level) : Method → Bool
  | .fatal => decide (cur.code ≤ Level.fatal.code)
  | .error => decide (cur.code ≤ Level.error.code)
  | .warn => decide (cur.code ≤ Level.warn.code)
  | .info => decide (cur.code ≤ Level.info.code)
  | .debug => decide (cur.code ≤ Level.debug.code)
  | .trace => decide (cur.code ≤ Level.trace.code)

/-- The level given to `log_message`. -/
-- models: vital/logger/default_logger.cxx:94-172
def methodLevel : Method → Level
  | .fatal => .fatal | .error => .error | .warn => .warn | .info => .info | .debug => .debug | .trace => .trace

/-! ### Location -/

-- models: vital/logger/location_info.h (data members)
structure Location where
  file : Str
  method : Str
  line : Int

-- models: vital/logger/location_info.cxx:78-82 (get_file_name)
def Location.fileName (l : Location) : Str := getFilenameName l.file

-- models: vital/logger/location_info.cxx:86-90 (get_file_path)
def Location.filePath (w : World) (l : Location) : Str := getFilenamePath w l.file

/-- `tmp.find( '(' )` and `erase` -/
-- models: vital/logger/location_info.cxx:108-113, 137-142
def dropParams (s : Str) : Str := s.takeWhile (· != '(')

/-- The position of the last "::", as the text before and after it. -/
def lastColons : Str → Option (Str × Str)
  | [] => none
  | c :: r =>
    match lastColons r with
    | some (a, b) => some (c :: a, b)
    | none => if c = ':' ∧ r.head? = some ':' then some ([], r.tail) else none

/-- `rfind( ' ' )` and `erase( 0, pos + 1 )` -/
-- models: vital/logger/location_info.cxx:121-125, 145-149
def dropType (s : Str) : Str := afterLast ' ' s

-- models: vital/logger/location_info.cxx:102-128 (get_method_name)
def Location.methodName (l : Location) : Str :=
  let tmp := dropParams l.method
  let tmp := match lastColons tmp with
    | some (_, b) => b
    | none => tmp
  dropType tmp

-- models: vital/logger/location_info.cxx:132-164 (get_class_name)
def Location.className (l : Location) : Str :=
  let tmp := dropType (dropParams l.method)
  match lastColons tmp with
  | some (a, _) => a
  | none => []

/-! ### Messages -/

/-- The time of a call: date text and milliseconds. -/
structure Stamp where
  date : Str
  ms : Nat

/-- One line of output. -/
-- models: vital/logger/default_logger.cxx:217-222
def lineText (t : Stamp) (lev : Level) (loc part : Str) : Str :=
  t.date ++ c!"." ++ natStr t.ms ++ c!" " ++ levelString lev ++ c!" " ++ loc ++ part ++ c!"\n"

/-- The lines of a message. -/
-- models: vital/logger/default_logger.cxx:187-225 (log_message_i)
def messageLines (t : Stamp) (lev : Level) (loc msg : Str) : List Str := (Parser.fileLines msg).map (lineText t lev loc)

-- models: vital/logger/default_logger.cxx:229-239 (log_message with location)
def locationText (l : Location) : Str := l.fileName ++ c!"(" ++ intStr l.line ++ c!"): "

/-- Output of `log_x( msg )` and `log_x( msg, location )`. -/
-- models: vital/logger/default_logger.cxx:94-185, 229-239
def logCall (cur : Level) (m : Method) (t : Stamp) (msg : Str) (loc : Option Location) : List Str :=
  if isEnabled cur m then
    match loc with
    | none => messageLines t (methodLevel m) [] msg
    | some l => messageLines t (methodLevel m) (locationText l) msg
  else []

/-! ### Loggers by name -/

/-- A logger object. -/
structure Logger where
  id : Nat
  name : Str
  level : Level
  deriving DecidableEq

/-- The factory: the map from names to loggers, and the number of loggers made. -/
-- models: vital/logger/default_logger.h (m_active_loggers)
structure Factory where
  active : List (Str × Nat) := []
  made : List Logger := []

/-- `get_logger( name )`; `log` identifies the object. -/
-- models: vital/logger/default_logger.cxx:262-276
def getLogger (f : Factory) (name : Str) : Factory × Nat :=
  match (f.active.find? (fun e => e.1 == name)).map (·.2) with
  | some i => (f, i)
  | none =>
    ({ active := (name, f.made.length) :: f.active, made := f.made ++ [⟨f.made.length, name, .trace⟩] }, f.made.length)

-- models: vital/logger/default_logger.cxx:90 (set_level)
def setLevel (f : Factory) (i : Nat) (lev : Level) : Factory :=
  { f with made := f.made.map (fun g => if g.id = i then { g with level := lev } else g) }

/-! ### C63 -/

/-- Severity, from TRACE (least) to FATAL; NONE admits everything. -/
def severity : Level → Nat
  | .none => 0 | .trace => 1 | .debug => 2 | .info => 3 | .warn => 4 | .error => 5 | .fatal => 6

/-- The word that stands for the level in a log line. -/
def methodTag : Method → Str
  | .fatal => c!"FATAL" | .error => c!"ERROR" | .warn => c!"WARN" | .info => c!"INFO" | .debug => c!"DEBUG" | .trace => c!"TRACE"

/-- Severity of the messages of a method. -/
def methodSeverity : Method → Nat
  | .trace => 1 | .debug => 2 | .info => 3 | .warn => 4 | .error => 5 | .fatal => 6

/-- C63: a message appears exactly when the logger's level is not above the message's level, and then one output line appears for
    each line of the message, each with the date, the level and the location in front. -/
theorem C63_gating (cur : Level) (m : Method) (t : Stamp) (loc : Option Location) {msg : Str} {parts : List Str} (h : Parser.TextIs msg parts) :
    (severity cur ≤ methodSeverity m →
      logCall cur m t msg loc = parts.map (fun p => t.date ++ c!"." ++ natStr t.ms ++ c!" " ++ methodTag m ++ c!" " ++
        ((loc.map (fun l => getFilenameName l.file ++ c!"(" ++ intStr l.line ++ c!"): ")).getD []) ++ p ++ c!"\n")) ∧
    (¬ severity cur ≤ methodSeverity m → logCall cur m t msg loc = []) := by
  have hen : isEnabled cur m = decide (severity cur ≤ methodSeverity m) := by cases cur <;> cases m <;> rfl
  unfold logCall
  rw [hen]
  constructor
  · intro hs
    rw [if_pos (by simp [hs])]
    cases loc <;>
    · unfold messageLines
      rw [Parser.fileLines_of h]
      cases m <;> rfl
  · intro hs
    rw [if_neg (by simp [hs])]

/-- The macros test the level first, which changes nothing. -/
-- models: vital/logger/logger.h:160-225 (LOG_ERROR, LOG_WARN, LOG_INFO, LOG_DEBUG, LOG_TRACE)
def macroLog (cur : Level) (m : Method) (t : Stamp) (msg : Str) (l : Location) : List Str :=
  if isEnabled cur m then logCall cur m t msg (some l) else []

theorem C63_macro (cur : Level) (m : Method) (t : Stamp) (msg : Str) (l : Location) : macroLog cur m t msg l = logCall cur m t msg (some l) := by
  unfold macroLog logCall
  split <;> rfl

/-- An empty message produces no output at all, even when the level is enabled. -/
theorem C63_empty (cur : Level) (m : Method) (t : Stamp) (loc : Option Location) : logCall cur m t [] loc = [] := by
  unfold logCall messageLines
  split <;> cases loc <;> rfl

/-- The calls made on a factory. -/
inductive Op
  | get (name : Str)
  | set (i : Nat) (lev : Level)

def runOp (f : Factory) : Op → Factory
  | .get n => (getLogger f n).1
  | .set i l => setLevel f i l

def run (f : Factory) (ops : List Op) : Factory := ops.foldl runOp f

theorem getLogger_find (f : Factory) (name : Str) : ((getLogger f name).1.active.find? (fun e => e.1 == name)).map (·.2) = some (getLogger f name).2 := by
  unfold getLogger
  cases h : (f.active.find? (fun e => e.1 == name)).map (·.2) with
  | some i => simpa using h
  | none => simp

theorem getLogger_keeps (f : Factory) (name other : Str) {i : Nat} (h : (f.active.find? (fun e => e.1 == other)).map (·.2) = some i) :
    ((getLogger f name).1.active.find? (fun e => e.1 == other)).map (·.2) = some i := by
  unfold getLogger
  cases hn : (f.active.find? (fun e => e.1 == name)).map (·.2) with
  | some j => exact h
  | none =>
    by_cases e : name = other
    · subst e; rw [hn] at h; cases h
    · simp only
      rw [List.find?_cons_of_neg (by simpa using e)]
      exact h

theorem getLogger_of_find {f : Factory} {name : Str} {i : Nat} (h : (f.active.find? (fun e => e.1 == name)).map (·.2) = some i) :
    getLogger f name = (f, i) := by
  unfold getLogger
  rw [h]

/-- C63: asking again for a name, after any number of other calls, returns the same logger. -/
theorem C63_same_logger (f : Factory) (name : Str) (ops : List Op) :
    (getLogger (run (getLogger f name).1 ops) name).2 = (getLogger f name).2 := by
  have key : ∀ (ops : List Op) (g : Factory), (g.active.find? (fun e => e.1 == name)).map (·.2) = some (getLogger f name).2 →
      ((run g ops).active.find? (fun e => e.1 == name)).map (·.2) = some (getLogger f name).2 := by
    intro ops
    induction ops with
    | nil => intro g h; exact h
    | cons o ops ih =>
      intro g h
      refine ih (runOp g o) ?_
      cases o with
      | get n => exact getLogger_keeps g n name h
      | set i l => exact h
  rw [getLogger_of_find (key ops _ (getLogger_find f name))]

/-- The loggers in the map were made under their name; their ids are their positions. -/
def Factory.Ok (f : Factory) : Prop := (∀ e ∈ f.active, ∃ g ∈ f.made, g.id = e.2 ∧ g.name = e.1) ∧
  ∀ (i : Nat) (g : Logger), f.made[i]? = some g → g.id = i

theorem getLogger_ok {f : Factory} (h : f.Ok) (name : Str) : (getLogger f name).1.Ok ∧ ∃ g ∈ (getLogger f name).1.made, g.id = (getLogger f name).2 ∧ g.name = name := by
  unfold getLogger
  cases hf : (f.active.find? (fun e => e.1 == name)).map (·.2) with
  | some i =>
    refine ⟨h, ?_⟩
    obtain ⟨e, he, rfl⟩ := Option.map_eq_some_iff.1 hf
    obtain ⟨g, hg, h1, h2⟩ := h.1 e (List.mem_of_find?_eq_some he)
    exact ⟨g, hg, h1, h2.trans (by simpa using List.find?_some he)⟩
  | none =>
    refine ⟨⟨?_, ?_⟩, ⟨⟨f.made.length, name, .trace⟩, by simp, rfl, rfl⟩⟩
    · intro e he
      rcases List.mem_cons.1 he with rfl | he
      · exact ⟨⟨f.made.length, name, .trace⟩, by simp, rfl, rfl⟩
      · obtain ⟨g, hg, h1⟩ := h.1 e he
        exact ⟨g, by simp [hg], h1⟩
    · intro i g hi
      simp only [List.getElem?_append] at hi
      split at hi
      · exact h.2 i g hi
      · rename_i hlt
        cases hj : i - f.made.length with
        | zero => rw [hj] at hi; simp at hi; subst hi; simp only; omega
        | succ k => rw [hj] at hi; simp at hi

theorem getLogger_made {f : Factory} {g : Logger} (h : g ∈ f.made) (name : Str) : g ∈ (getLogger f name).1.made := by
  unfold getLogger
  split
  · exact h
  · simp [h]

theorem setLevel_ok {f : Factory} (h : f.Ok) (i : Nat) (lev : Level) : (setLevel f i lev).Ok := by
  refine ⟨?_, ?_⟩
  · intro e he
    obtain ⟨g, hg, h1, h2⟩ := h.1 e he
    refine ⟨if g.id = i then { g with level := lev } else g, List.mem_map.2 ⟨g, hg, rfl⟩, ?_⟩
    split <;> exact ⟨h1, h2⟩
  · intro j g hg
    simp only [setLevel, List.getElem?_map, Option.map_eq_some_iff] at hg
    obtain ⟨g', hg', rfl⟩ := hg
    have := h.2 j g' hg'
    split <;> exact this

/-- The level of logger number `i`. -/
def levelOf (f : Factory) (i : Nat) : Option Level := (f.made.find? (fun g => decide (g.id = i))).map (·.level)

/-- C63: `set_level` changes the level of that logger and of no other. -/
theorem C63_set_level (f : Factory) (i j : Nat) (lev : Level) (h : levelOf f j ≠ none) :
    levelOf (setLevel f i lev) j = if j = i then some lev else levelOf f j := by
  unfold levelOf setLevel at *
  simp only
  generalize f.made = made at h
  induction made with
  | nil => simp at h
  | cons g l ih =>
    simp only [List.map_cons]
    by_cases hg : g.id = j
    · rw [List.find?_cons_of_pos (by split <;> simp [hg]), List.find?_cons_of_pos (by simp [hg])]
      by_cases hj : j = i
      · simp [hg, hj]
      · have : ¬ g.id = i := by rw [hg]; exact hj
        simp [hj, this]
    · rw [List.find?_cons_of_neg (by split <;> simp [hg]), List.find?_cons_of_neg (by simp [hg])]
      refine ih ?_
      rw [List.find?_cons_of_neg (by simp [hg])] at h
      exact h

/-- Different names have different loggers. -/
theorem C63_different_loggers (ops : List Op) {a b : Str} (hab : a ≠ b) :
    (getLogger (run {} ops) a).2 ≠ (getLogger (getLogger (run {} ops) a).1 b).2 := by
  have hok : ∀ (ops : List Op) (g : Factory), g.Ok → (run g ops).Ok := by
    intro ops
    induction ops with
    | nil => intro g h; exact h
    | cons o ops ih =>
      intro g h
      refine ih (runOp g o) ?_
      cases o with
      | get n => exact (getLogger_ok h n).1
      | set i l => exact setLevel_ok h i l
  have h0 : (run {} ops).Ok := hok ops {} ⟨by simp, by simp⟩
  obtain ⟨h1, g1, m1, i1, n1⟩ := getLogger_ok h0 a
  obtain ⟨h2, g2, m2, i2, n2⟩ := getLogger_ok h1 b
  intro e
  -- both loggers are in the final list, under the same id
  have m1' : g1 ∈ (getLogger (getLogger (run {} ops) a).1 b).1.made := getLogger_made m1 b
  obtain ⟨k1, e1⟩ := List.mem_iff_getElem?.1 m1'
  obtain ⟨k2, e2⟩ := List.mem_iff_getElem?.1 m2
  have p1 := h2.2 k1 g1 e1
  have p2 := h2.2 k2 g2 e2
  have : k1 = k2 := by rw [← p1, ← p2, i1, i2, e]
  subst this
  rw [e1] at e2
  injection e2 with e2
  subst e2
  exact hab (n1.symm.trans n2)

/-- C63: the logger of a name asked for the first time lets every message pass. -/
theorem C63_initial_level (ops : List Op) {name : Str} (hn : ∀ o ∈ ops, o ≠ .get name) (m : Method) :
    ∃ lev, levelOf (getLogger (run {} ops) name).1 (getLogger (run {} ops) name).2 = some lev ∧ isEnabled lev m = true := by
  have hok : ∀ (ops : List Op) (g : Factory), (∀ o ∈ ops, o ≠ .get name) → (∀ e ∈ g.active, e.1 ≠ name) → (∀ e ∈ g.made, e.id < g.made.length) →
      (∀ e ∈ (run g ops).active, e.1 ≠ name) ∧ (∀ e ∈ (run g ops).made, e.id < (run g ops).made.length) := by
    intro ops
    induction ops with
    | nil => intro g _ h h'; exact ⟨h, h'⟩
    | cons o ops ih =>
      intro g hn h h'
      refine ih (runOp g o) (fun o' ho' => hn o' (by simp [ho'])) ?_ ?_
      · cases o with
        | get n =>
          simp only [runOp, getLogger]
          split
          · exact h
          · intro e he
            rcases List.mem_cons.1 he with rfl | he
            · intro e'; exact hn (.get n) (by simp) (by rw [← e'])
            · exact h e he
        | set i l => exact h
      · cases o with
        | get n =>
          simp only [runOp, getLogger]
          split
          · exact h'
          · intro e he
            rcases List.mem_append.1 he with he | he
            · have := h' e he
              simp only [List.length_append, List.length_singleton]
              omega
            · simp only [List.mem_singleton] at he
              subst he
              simp
        | set i l =>
          intro e he
          simp only [runOp, setLevel, List.mem_map, List.length_map] at he ⊢
          obtain ⟨g', hg', rfl⟩ := he
          have := h' g' hg'
          split <;> exact this
  obtain ⟨h1, h2⟩ := hok ops {} hn (by simp) (by simp)
  have hf : ((run {} ops).active.find? (fun e => e.1 == name)) = none := by
    rw [List.find?_eq_none]
    intro e he
    simpa using h1 e he
  refine ⟨.trace, ?_, by cases m <;> rfl⟩
  unfold getLogger levelOf
  rw [hf]
  simp only [Option.map_none]
  rw [List.find?_append]
  have : (List.find? (fun g => decide (g.id = (run {} ops).made.length)) (run {} ops).made) = none := by
    rw [List.find?_eq_none]
    intro e he
    have := h2 e he
    simp only [decide_eq_true_eq]
    omega
  rw [this]
  simp

example : logCall .info .warn ⟨c!"2015-01-01 10:00:00", 45⟩ (c!"a\n\nb") (some ⟨c!"/x/y.cxx", c!"void f()", 12⟩) =
    [c!"2015-01-01 10:00:00.45 WARN y.cxx(12): a\n", c!"2015-01-01 10:00:00.45 WARN y.cxx(12): \n", c!"2015-01-01 10:00:00.45 WARN y.cxx(12): b\n"] ∧
    logCall .info .debug ⟨c!"2015-01-01 10:00:00", 45⟩ (c!"a\n\nb") none = [] := by decide +kernel

/-! ### C98: time stamps -/

/-- The time a stamp shows, read as seconds and decimal fraction: the fraction `d` with `n` digits means `d / 10^n`; two stamps
    of one second show the same time when the fractions are equal. -/
def ShowsSame (a b : Nat) : Prop := a * 10 ^ (natStr b).length = b * 10 ^ (natStr a).length

/-- The full claim: different milliseconds show different times. -/
def C98_statement : Prop := ∀ a b, a < 1000 → b < 1000 → ShowsSame a b → a = b

/-- It is false: leading zeros are missing, 7 ms and 700 ms both show seven tenths. -/
theorem C98_refuted : ¬ C98_statement := by
  intro h
  have := h 7 700 (by decide) (by decide) (by unfold ShowsSame; decide +kernel)
  omega

/-- It holds among times that print with the same number of digits. -/
theorem C98_partial {a b : Nat} (hl : (natStr a).length = (natStr b).length) (h : ShowsSame a b) : a = b := by
  unfold ShowsSame at h
  rw [hl] at h
  exact Nat.eq_of_mul_eq_mul_right (Nat.pow_pos (by decide)) h

end Vital.Log
