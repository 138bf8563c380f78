import Verif.Basic.Str
/-
  Which factory makes the loggers: vital/logger/kwiver_logger_manager.cxx (construction, load_factory, set_logger_factory, get_logger) and
  kwiver_logger.cxx (the pointer of a logger to its factory); properties C252, C253.
-/
namespace Vital.Log.Fac
open Vital

/-- A shared library as the manager sees it: the symbol `kwiver_logger_factory` is missing (`none`), or its function returns null (`some none`) or a
    factory with a name. -/
structure Lib where
  entry : Option (Option Str)

/-- The environment variable VITAL_LOGGER_FACTORY and the libraries the loader finds under a name. -/
structure World where
  env : Option Str
  lib : Str → Option Lib

inductive Said where
  | nothing
  | info
  | error
deriving DecidableEq

def defaultLib : Str := c!"vital_logger_plugin.so"
def builtin : Str := c!"default_logger factory"

-- models: vital/logger/kwiver_logger_manager.cxx:222-251 (load_factory): `error` is the exception; else the factory, which may be null
def loadFactory (w : World) (name : Str) : Except Unit (Option Str) :=
  match w.lib name with
  | none => .error ()
  | some l => match l.entry with
    | none => .error ()
    | some f => .ok f

-- models: vital/logger/kwiver_logger_manager.cxx:95-146 (constructor): the factory installed (`none` is null) and what is written to std::cerr
def start (w : World) : Option Str × Said :=
  match w.env with
  | none => match loadFactory w defaultLib with
    | .ok f => (f, .nothing)
    | .error () => (some builtin, .info)
  | some n => match loadFactory w n with
    | .ok f => (f, .nothing)
    | .error () => (some builtin, .error)

/-- Specification: the library asked for - by the variable, or else the default one - provides a factory. -/
def Provides (w : World) (f : Str) : Prop := w.lib (w.env.getD (c!"vital_logger_plugin.so")) = some ⟨some (some f)⟩

/-- It cannot be used: not found, or without the entry function. -/
def Unusable (w : World) : Prop := w.lib (w.env.getD (c!"vital_logger_plugin.so")) = none ∨ w.lib (w.env.getD (c!"vital_logger_plugin.so")) = some ⟨none⟩

/-- Full property C252: there always is a factory; the one of the library asked for if it provides one, else the built-in one, and an error is reported
    exactly when the variable asked for a library that could not be used. -/
def C252_statement : Prop := ∀ w : World, ∃ f, (start w).1 = some f ∧ (∀ g, Provides w g → f = g) ∧ ((∀ g, ¬ Provides w g) → f = builtin) ∧
  ((start w).2 = .error ↔ w.env ≠ none ∧ ∀ g, ¬ Provides w g)

theorem C252_refuted : ¬ C252_statement := by
  intro h
  obtain ⟨f, hf, _⟩ := h ⟨none, fun _ => some ⟨some none⟩⟩
  cases hf

/-- What holds: whenever the entry function, if there is one, returns a factory.  Missing: an entry function that returns null leaves the manager without
    a factory, and nothing is reported. -/
theorem C252_partial (w : World) (hn : w.lib (w.env.getD (c!"vital_logger_plugin.so")) ≠ some ⟨some none⟩) :
    ∃ f, (start w).1 = some f ∧ (∀ g, Provides w g → f = g) ∧ (Unusable w → f = c!"default_logger factory") ∧
      ((start w).2 = .error ↔ w.env ≠ none ∧ Unusable w) ∧ ((start w).2 = .info ↔ w.env = none ∧ Unusable w) := by
  obtain ⟨env, lib⟩ := w
  simp only [Provides, Unusable] at hn ⊢
  cases env with
  | none =>
    simp only [Option.getD_none] at hn ⊢
    simp only [start, loadFactory, defaultLib]
    cases hl : lib (c!"vital_logger_plugin.so") with
    | none => exact ⟨_, rfl, (by intro g hg; cases hg), fun _ => rfl, by simp, by simp⟩
    | some l =>
      obtain ⟨e⟩ := l
      cases e with
      | none => exact ⟨_, rfl, (by intro g hg; cases hg), fun _ => rfl, by simp, by simp⟩
      | some f =>
        cases f with
        | none => exact absurd hl hn
        | some f => exact ⟨f, rfl, (by intro g hg; cases hg; rfl), (by rintro (h | h) <;> cases h), by simp, by simp⟩
  | some n =>
    simp only [Option.getD_some] at hn ⊢
    simp only [start, loadFactory]
    cases hl : lib n with
    | none => exact ⟨_, rfl, (by intro g hg; cases hg), fun _ => rfl, by simp, by simp⟩
    | some l =>
      obtain ⟨e⟩ := l
      cases e with
      | none => exact ⟨_, rfl, (by intro g hg; cases hg), fun _ => rfl, by simp, by simp⟩
      | some f =>
        cases f with
        | none => exact absurd hl hn
        | some f => exact ⟨f, rfl, (by intro g hg; cases hg; rfl), (by rintro (h | h) <;> cases h), by simp, by simp⟩

example : start ⟨some (c!"x.so"), fun n => if n = c!"x.so" then some ⟨none⟩ else none⟩ = (some (c!"default_logger factory"), .error) := by decide

/-! ### C253: loggers and their factories -/

/-- The factories ever made (by name), those destroyed, the installed one, and the loggers with a pointer to their factory. -/
structure St where
  facs : List Str
  dead : List Nat
  cur : Option Nat
  loggers : List (Nat × Str)

-- models: the state after construction with a factory
def St.init (f : Str) : St := ⟨[f], [], some 0, []⟩

inductive Op where
  | newFactory (name : Str)
  | setFactory (f : Option Nat)
  | destroyFactory (f : Nat)
  | getLogger (name : Str)
  | loggerName (i : Nat)
  | loggerFactory (i : Nat)
  | currentFactory

/-- A virtual call or member access through a factory pointer: undefined (`none`) when the factory is destroyed. -/
def St.fac (s : St) (k : Nat) : Option Str := if k ∈ s.dead then none else s.facs[k]?

-- models: vital/logger/kwiver_logger_manager.cxx:186-219 (get_logger, set_logger_factory, get_factory_name), kwiver_logger.cxx:54-58, 88-102
-- (constructor, get_name, get_factory_name); newFactory and destroyFactory are the program's; the answer of a call is a string (empty for none)
def exec (s : St) : Op → Option (St × Str)
  | .newFactory n => some ({ s with facs := s.facs ++ [n] }, [])
  | .setFactory f => some ({ s with cur := f }, [])
  | .destroyFactory k => some ({ s with dead := k :: s.dead }, [])
  | .getLogger n => s.cur.bind (fun k => (s.fac k).map (fun _ => ({ s with loggers := s.loggers ++ [(k, n)] }, [])))
  | .loggerName i => (s.loggers[i]?).map (fun p => (s, p.2))
  | .loggerFactory i => (s.loggers[i]?).bind (fun p => (s.fac p.1).map (fun n => (s, n)))
  | .currentFactory => s.cur.bind (fun k => (s.fac k).map (fun n => (s, n)))

def run : St → List Op → Option (List Str)
  | _, [] => some []
  | s, o :: l => (exec s o).bind (fun r => (run r.1 l).map (r.2 :: ·))

/-- Specification: the names of the factories made, the one installed, and the loggers with the name of the factory that made them. -/
structure Spec where
  facs : List Str
  cur : Str
  loggers : List (Str × Str)

def Spec.init (f : Str) : Spec := ⟨[f], f, []⟩

inductive Step : Spec → Op → Str → Spec → Prop where
  | newFactory {s : Spec} {n : Str} : Step s (.newFactory n) [] { s with facs := s.facs ++ [n] }
  | setFactory {s : Spec} {k : Nat} {n : Str} : s.facs[k]? = some n → Step s (.setFactory (some k)) [] { s with cur := n }
  | getLogger {s : Spec} {n : Str} : Step s (.getLogger n) [] { s with loggers := s.loggers ++ [(s.cur, n)] }
  | loggerName {s : Spec} {i : Nat} {p : Str × Str} : s.loggers[i]? = some p → Step s (.loggerName i) p.2 s
  | loggerFactory {s : Spec} {i : Nat} {p : Str × Str} : s.loggers[i]? = some p → Step s (.loggerFactory i) p.1 s
  | currentFactory {s : Spec} : Step s .currentFactory s.cur s
  | destroyFactory {s : Spec} {k : Nat} : Step s (.destroyFactory k) [] s

inductive Steps : Spec → List Op → List Str → Spec → Prop where
  | nil {s : Spec} : Steps s [] [] s
  | cons {s s' s'' : Spec} {o : Op} {a : Str} {l : List Op} {as : List Str} : Step s o a s' → Steps s' l as s'' → Steps s (o :: l) (a :: as) s''

/-- The program may destroy factories that are not installed; `c` is the installed one. -/
def legal : Nat → List Op → Prop
  | _, [] => True
  | _, .setFactory (some k) :: l => legal k l
  | _, .setFactory none :: _ => False
  | c, .destroyFactory k :: l => k ≠ c ∧ (∀ o ∈ l, o ≠ .setFactory (some k)) ∧ legal c l
  | c, _ :: l => legal c l

/-- Full property C253: a logger always knows the name of the factory that made it, also after another factory is installed and the program destroys the
    one it got back. -/
def C253_statement : Prop := ∀ (f : Str) (l : List Op) (as : List Str) (s : Spec), legal 0 l → Steps (.init f) l as s → run (.init f) l = some as

/-- C253 is false of the code: the logger keeps a raw pointer to the factory, which dangles. -/
theorem C253_refuted : ¬ C253_statement := by
  intro h
  have := h (c!"a") [.getLogger (c!"x"), .newFactory (c!"b"), .setFactory (some 1), .destroyFactory 0, .loggerFactory 0] [[], [], [], [], c!"a"] _
    ⟨by decide, (by intro o ho; simp at ho; subst ho; simp), trivial⟩
    (.cons .getLogger (.cons .newFactory (.cons (.setFactory (n := c!"b") rfl) (.cons .destroyFactory (.cons (.loggerFactory (p := (c!"a", c!"x")) rfl) .nil)))))
  revert this
  decide

structure Agrees (s : St) (t : Spec) : Prop where
  facs : s.facs = t.facs
  dead : s.dead = []
  cur : ∃ k, s.cur = some k ∧ t.facs[k]? = some t.cur
  loggers : s.loggers.length = t.loggers.length
  logger : ∀ (i : Nat) (p : Nat × Str), s.loggers[i]? = some p → ∃ n, t.facs[p.1]? = some n ∧ t.loggers[i]? = some (n, p.2)

theorem step_agrees {s : St} {t t' : Spec} {o : Op} {a : Str} (h : Agrees s t) (hs : Step t o a t') (hd : ∀ k, o ≠ .destroyFactory k) :
    ∃ s', exec s o = some (s', a) ∧ Agrees s' t' := by
  obtain ⟨k, hc, hk⟩ := h.cur
  have fac : ∀ (k : Nat) (n : Str), t.facs[k]? = some n → s.fac k = some n := by
    intro k n hk
    simp [St.fac, h.dead, h.facs, hk]
  have logger : ∀ (i : Nat) (p : Str × Str), t.loggers[i]? = some p → ∃ k, s.loggers[i]? = some (k, p.2) ∧ t.facs[k]? = some p.1 := by
    intro i p hp
    obtain ⟨hi, _⟩ := List.getElem?_eq_some_iff.1 hp
    have hi' : i < s.loggers.length := by rw [h.loggers]; exact hi
    obtain ⟨n, h1, h2⟩ := h.logger i s.loggers[i] (List.getElem?_eq_getElem hi')
    rw [hp] at h2
    obtain rfl := Option.some.inj h2
    exact ⟨s.loggers[i].1, List.getElem?_eq_getElem hi', h1⟩
  cases hs with
  | @newFactory n =>
    refine ⟨_, rfl, by simp [h.facs], h.dead, ⟨k, hc, ?_⟩, h.loggers, ?_⟩
    · obtain ⟨hi, _⟩ := List.getElem?_eq_some_iff.1 hk
      simp only [List.getElem?_append_left hi]
      exact hk
    · intro i p hp
      obtain ⟨n', h1, h2⟩ := h.logger i p hp
      obtain ⟨hi, _⟩ := List.getElem?_eq_some_iff.1 h1
      exact ⟨n', by simp only [List.getElem?_append_left hi]; exact h1, h2⟩
  | setFactory hk' => exact ⟨_, rfl, h.facs, h.dead, ⟨_, rfl, hk'⟩, h.loggers, h.logger⟩
  | @getLogger n =>
    refine ⟨{ s with loggers := s.loggers ++ [(k, n)] }, by simp [exec, hc, fac k _ hk], h.facs, h.dead, ⟨k, hc, hk⟩, by simp [h.loggers], ?_⟩
    intro i p hp
    rw [List.getElem?_append] at hp
    split at hp
    · rename_i hi
      obtain ⟨n', h1, h2⟩ := h.logger i p hp
      refine ⟨n', h1, ?_⟩
      show (t.loggers ++ [(t.cur, n)])[i]? = _
      rw [List.getElem?_append_left (by rw [← h.loggers]; exact hi)]
      exact h2
    · rename_i hi
      have hlt : i - s.loggers.length < 1 := by
        obtain ⟨h1, _⟩ := List.getElem?_eq_some_iff.1 hp
        simpa using h1
      have e : i = t.loggers.length := by rw [← h.loggers]; omega
      rw [h.loggers, e] at hp
      simp at hp
      subst hp
      exact ⟨t.cur, hk, by rw [e]; simp⟩
  | loggerName hp =>
    obtain ⟨k', h1, h2⟩ := logger _ _ hp
    exact ⟨s, by simp [exec, h1], h⟩
  | loggerFactory hp =>
    obtain ⟨k', h1, h2⟩ := logger _ _ hp
    exact ⟨s, by simp [exec, h1, fac _ _ h2], h⟩
  | currentFactory => exact ⟨s, by simp [exec, hc, fac k _ hk], h⟩
  | @destroyFactory k' => exact absurd rfl (hd k')

/-- What holds: as long as the program keeps the factories it gets back, every call answers as specified: loggers are made by the factory installed at the
    time and know its name and their own.  Missing: histories in which a replaced factory is destroyed. -/
theorem C253_partial (f : Str) (l : List Op) (as : List Str) (s : Spec) (hd : ∀ k, Op.destroyFactory k ∉ l) (h : Steps (.init f) l as s) :
    run (.init f) l = some as := by
  have key : ∀ {t : Spec} {l : List Op} {as : List Str} {t' : Spec}, Steps t l as t' → (∀ k, Op.destroyFactory k ∉ l) → ∀ s, Agrees s t → run s l = some as := by
    intro t l as t' hst
    induction hst with
    | nil => intro _ s _; rfl
    | cons h1 _ ih =>
      intro hd s hag
      obtain ⟨s', e, h2⟩ := step_agrees hag h1 (fun k e => hd k (by simp [e]))
      simp [run, e, ih (fun k hk => hd k (by simp [hk])) s' h2]
  refine key h hd _ ⟨rfl, rfl, ⟨0, rfl, rfl⟩, rfl, ?_⟩
  intro i p hp
  simp [St.init] at hp

/-- The state after a history. -/
def after : St → List Op → Option St
  | s, [] => some s
  | s, o :: l => (exec s o).bind (fun r => after r.1 l)

/-- The name of a logger is right in any case, also when its factory is gone. -/
theorem C253_name {s s' s'' : St} {n a : Str} {l : List Op} (h : exec s (.getLogger n) = some (s', a)) (hl : after s' l = some s'') :
    exec s'' (.loggerName s.loggers.length) = some (s'', n) := by
  have h0 : s'.loggers[s.loggers.length]?.map Prod.snd = some n := by
    simp only [exec] at h
    cases hc : s.cur with
    | none => rw [hc] at h; cases h
    | some k =>
      rw [hc] at h
      simp only [Option.bind_some] at h
      cases hf : s.fac k with
      | none => rw [hf] at h; cases h
      | some x =>
        rw [hf] at h
        simp only [Option.map_some, Option.some.injEq, Prod.mk.injEq] at h
        rw [← h.1]
        simp
  have key : ∀ (l : List Op) (s' : St), s'.loggers[s.loggers.length]?.map Prod.snd = some n → after s' l = some s'' →
      s''.loggers[s.loggers.length]?.map Prod.snd = some n := by
    intro l
    induction l with
    | nil => intro s' h1 h2; rw [← Option.some.inj h2]; exact h1
    | cons o l ih =>
      intro s' h1 h2
      simp only [after] at h2
      cases he : exec s' o with
      | none => rw [he] at h2; cases h2
      | some r =>
        rw [he] at h2
        refine ih r.1 ?_ h2
        have : r.1.loggers = s'.loggers ∨ ∃ x, r.1.loggers = s'.loggers ++ [x] := by
          cases o with
          | newFactory m => simp only [exec] at he; rw [← Option.some.inj he]; exact .inl rfl
          | setFactory f => simp only [exec] at he; rw [← Option.some.inj he]; exact .inl rfl
          | destroyFactory k => simp only [exec] at he; rw [← Option.some.inj he]; exact .inl rfl
          | getLogger m =>
            simp only [exec, Option.bind_eq_some_iff, Option.map_eq_some_iff] at he
            obtain ⟨k, _, x, _, e⟩ := he
            rw [← e]
            exact .inr ⟨_, rfl⟩
          | loggerName i =>
            simp only [exec, Option.map_eq_some_iff] at he
            obtain ⟨x, _, e⟩ := he
            rw [← e]
            exact .inl rfl
          | loggerFactory i =>
            simp only [exec, Option.bind_eq_some_iff, Option.map_eq_some_iff] at he
            obtain ⟨k, _, x, _, e⟩ := he
            rw [← e]
            exact .inl rfl
          | currentFactory =>
            simp only [exec, Option.bind_eq_some_iff, Option.map_eq_some_iff] at he
            obtain ⟨k, _, x, _, e⟩ := he
            rw [← e]
            exact .inl rfl
        rcases this with e | ⟨x, e⟩
        · rw [e]; exact h1
        · rw [e]
          obtain ⟨p, hp, _⟩ := Option.map_eq_some_iff.1 h1
          obtain ⟨hi, _⟩ := List.getElem?_eq_some_iff.1 hp
          rw [List.getElem?_append_left hi]
          exact h1
  have h2 := key l s' h0 hl
  obtain ⟨p, hp, e⟩ := Option.map_eq_some_iff.1 h2
  simp [exec, hp, e]

example : run (.init (c!"a")) [.getLogger (c!"x"), .newFactory (c!"b"), .setFactory (some 1), .getLogger (c!"y"), .loggerFactory 0, .loggerFactory 1, .loggerName 0] =
    some [[], [], [], [], c!"a", c!"b", c!"x"] := by decide

end Vital.Log.Fac
