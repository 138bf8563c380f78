import Verif.Basic.Str
import Mathlib.Data.List.Induction
/-
  SystemInformation::SetStackTraceOnError and the handler it installs (vital/kwiversys/SystemInformation.cxx); property C281.

  The signal actions of the process are a function; calls to sigaction succeed.  What the handler prints is one event.
-/
namespace Vital.SysInfo.Sig
open Vital

inductive Signal where
  | abrt | segv | term | int | ill | bus | fpe
  /-- any other -/
  | other (n : Nat)
  deriving DecidableEq

/-- What a signal does; `user k` is a function of the program, `trace` the one of the library. -/
inductive Action where
  | dfl
  | ign
  | user (k : Nat)
  | trace
  deriving DecidableEq

/-- The actions, and those saved (the static variables; `none` is `!saOrigValid`). -/
structure St where
  act : Signal → Action
  saved : Option (Signal → Action)

/-- The signals for which a handler is installed. -/
-- models: vital/kwiversys/SystemInformation.cxx:3793-3799, 3813-3819, 3826-3832
def handled : List Signal := [.abrt, .segv, .term, .int, .ill, .bus, .fpe]

/-- `sigaction( s, new, 0 )` -/
def setAction (act : Signal → Action) (s : Signal) (a : Action) : Signal → Action := fun s' => if s' = s then a else act s'

-- models: vital/kwiversys/SystemInformation.cxx:3776-3840 (SetStackTraceOnError)
def setTrace (st : St) (enable : Bool) : St :=
  match enable, st.saved with
  | true, none => ⟨handled.foldl (fun f s => setAction f s .trace) st.act, some st.act⟩
  | false, some o => ⟨handled.foldl (fun f s => setAction f s (o s)) st.act, none⟩
  | _, _ => st

inductive Event where
  /-- the stack is printed on stderr, for this signal -/
  | printed (s : Signal)
  /-- a handler of the program is called -/
  | called (k : Nat) (s : Signal)
  /-- the process ends by this signal -/
  | killed (s : Signal)
  deriving DecidableEq

/-- `abort()`: SIGABRT is raised; when its handler returns or it is ignored, it is raised again with the default action. The handler of the
    library does not return (it would call abort again, with the default action because of SA_RESETHAND). -/
def abort (act : Signal → Action) : List Event :=
  match act .abrt with
  | .user k => [.called k .abrt, .killed .abrt]
  | .trace => [.printed .abrt, .killed .abrt]
  | .dfl | .ign => [.killed .abrt]

/-- A signal is delivered whose default action ends the process. SA_RESETHAND: the action is the default one while the library's handler runs. -/
-- models: vital/kwiversys/SystemInformation.cxx:1079-1294 (StacktraceSignalHandler), 3809-3812 (the flags)
def deliver (st : St) (s : Signal) : List Event :=
  match st.act s with
  | .dfl => [.killed s]
  | .ign => []
  | .user k => [.called k s]
  | .trace => .printed s :: abort (setTrace ⟨setAction st.act s .dfl, st.saved⟩ false).act

/-- What the program does. -/
inductive Op where
  /-- SetStackTraceOnError -/
  | trace (enable : Bool)
  /-- sigaction or signal, called by the program itself -/
  | action (s : Signal) (a : Action)

def step (st : St) : Op → St
  | .trace b => setTrace st b
  | .action s a => ⟨setAction st.act s a, st.saved⟩

def run (st : St) (ops : List Op) : St := ops.foldl step st

/-! ### Specification -/

/-- The last call of SetStackTraceOnError enabled it. -/
def Enabled (ops : List Op) : Prop := ∃ pre post, ops = pre ++ .trace true :: post ∧ ∀ b, Op.trace b ∉ post

/-- The last action that the program itself set for a signal. -/
def lastSet (s : Signal) : List Op → Option Action
  | [] => none
  | .action s' a :: ops => (lastSet s ops).or (if s' = s then some a else none)
  | .trace _ :: ops => lastSet s ops

/-- The seven signals the documentation names. -/
def Common (s : Signal) : Prop := s = .abrt ∨ s = .segv ∨ s = .term ∨ s = .int ∨ s = .ill ∨ s = .bus ∨ s = .fpe

/-! ### Proofs -/

theorem handled_common (s : Signal) : s ∈ handled ↔ Common s := by
  simp [handled, Common]

theorem fold_set (g : Signal → Action) : ∀ (l : List Signal) (f : Signal → Action) (s : Signal),
    l.foldl (fun f s => setAction f s (g s)) f s = if s ∈ l then g s else f s
  | [], f, s => by simp
  | a :: l, f, s => by
    rw [List.foldl_cons, fold_set g l]
    by_cases h : s ∈ l
    · rw [if_pos h, if_pos (List.mem_cons_of_mem _ h)]
    · rw [if_neg h]
      unfold setAction
      by_cases e : s = a
      · rw [if_pos e, if_pos (e ▸ List.mem_cons_self ..), e]
      · rw [if_neg e, if_neg]
        intro hm
        rcases List.mem_cons.1 hm with hm | hm
        · exact e hm
        · exact h hm

theorem run_append (st : St) (a b : List Op) : run st (a ++ b) = run (run st a) b := List.foldl_append

/-- The saved actions stay while nothing is disabled. -/
theorem mid_saved {o : Signal → Action} : ∀ (ops : List Op) (st : St), st.saved = some o → Op.trace false ∉ ops →
    (run st ops).saved = some o ∧ ∀ s, (run st ops).act s = (lastSet s ops).getD (st.act s)
  | [], st, h, _ => ⟨h, fun _ => rfl⟩
  | op :: ops, st, h, hm => by
    simp only [List.mem_cons, not_or] at hm
    cases op with
    | trace b =>
      cases b with
      | false => exact absurd rfl hm.1
      | true =>
        have : step st (.trace true) = st := by simp only [step, setTrace, h]
        obtain ⟨h1, h2⟩ := mid_saved ops st h hm.2
        refine ⟨?_, fun s => ?_⟩
        · show (run (step st (.trace true)) ops).saved = _
          rw [this]; exact h1
        · show (run (step st (.trace true)) ops).act s = _
          rw [this]; exact h2 s
    | action s' a =>
      obtain ⟨h1, h2⟩ := mid_saved ops ⟨setAction st.act s' a, st.saved⟩ h hm.2
      refine ⟨h1, fun s => ?_⟩
      show (run ⟨setAction st.act s' a, st.saved⟩ ops).act s = _
      rw [h2 s, lastSet]
      simp only [setAction]
      cases lastSet s ops with
      | some x => rfl
      | none =>
        by_cases e : s = s'
        · subst e; simp
        · rw [if_neg e]
          simp only [Option.none_or]
          rw [if_neg (fun h => e h.symm)]

theorem fold_saved_none : ∀ (ops : List Op) (st : St), st.saved = none → ¬ Enabled ops → (run st ops).saved = none := by
  intro ops
  induction ops using List.reverseRecOn with
  | nil => intro st h _; exact h
  | append_singleton ops op ih =>
    intro st h hn
    rw [run_append]
    cases op with
    | trace b =>
      cases b with
      | true => exact absurd ⟨ops, [], rfl, by simp⟩ hn
      | false =>
        show (setTrace (run st ops) false).saved = none
        unfold setTrace
        cases hs : (run st ops).saved <;> simp [hs]
    | action s a =>
      show (run st ops).saved = none
      refine ih st h fun ⟨pre, post, e, hp⟩ => hn ⟨pre, post ++ [.action s a], by simp [e], ?_⟩
      intro b hb
      rcases List.mem_append.1 hb with hb | hb
      · exact hp b hb
      · simp at hb

/-- C281: after the traces are disabled the seven signals have the actions they had when the traces were enabled - however often they were
    enabled in between, and whatever the program set in between - and all other signals have the actions that the program set. -/
theorem C281_restored (init : Signal → Action) (pre mid : List Op) (hp : ¬ Enabled pre) (hm : Op.trace false ∉ mid) (s : Signal) :
    (Common s → (run ⟨init, none⟩ (pre ++ [.trace true] ++ mid ++ [.trace false])).act s = (run ⟨init, none⟩ pre).act s) ∧
    (¬ Common s → (run ⟨init, none⟩ (pre ++ [.trace true] ++ mid ++ [.trace false])).act s = (lastSet s mid).getD ((run ⟨init, none⟩ pre).act s)) := by
  have h0 := fold_saved_none pre ⟨init, none⟩ rfl hp
  rw [run_append, run_append, run_append]
  generalize run ⟨init, none⟩ pre = st at *
  have e1 : run st [.trace true] = ⟨handled.foldl (fun f s => setAction f s .trace) st.act, some st.act⟩ := by
    show setTrace st true = _
    simp only [setTrace, h0]
  rw [e1]
  obtain ⟨h1, h2⟩ := mid_saved mid ⟨handled.foldl (fun f s => setAction f s .trace) st.act, some st.act⟩ rfl hm
  generalize run _ mid = st' at *
  have e2 : (run st' [.trace false]).act s = handled.foldl (fun f s => setAction f s (st.act s)) st'.act s := by
    show (setTrace st' false).act s = _
    simp only [setTrace, h1]
  rw [e2, fold_set]
  constructor
  · intro hc
    rw [if_pos ((handled_common s).2 hc)]
  · intro hc
    rw [if_neg (fun h => hc ((handled_common s).1 h)), h2 s]
    simp only
    rw [fold_set (fun _ => .trace), if_neg (fun h => hc ((handled_common s).1 h))]

/-- C281: while they are enabled the seven signals have the library's handler unless the program replaced it; the others are not touched. -/
theorem C281_installed (init : Signal → Action) (pre mid : List Op) (hp : ¬ Enabled pre) (hm : Op.trace false ∉ mid) (s : Signal) :
    (Common s → (run ⟨init, none⟩ (pre ++ [.trace true] ++ mid)).act s = (lastSet s mid).getD .trace) ∧
    (¬ Common s → (run ⟨init, none⟩ (pre ++ [.trace true] ++ mid)).act s = (lastSet s mid).getD ((run ⟨init, none⟩ pre).act s)) := by
  have h0 := fold_saved_none pre ⟨init, none⟩ rfl hp
  rw [run_append, run_append]
  generalize run ⟨init, none⟩ pre = st at *
  have e1 : run st [.trace true] = ⟨handled.foldl (fun f s => setAction f s .trace) st.act, some st.act⟩ := by
    show setTrace st true = _
    simp only [setTrace, h0]
  rw [e1]
  obtain ⟨h1, h2⟩ := mid_saved mid ⟨handled.foldl (fun f s => setAction f s .trace) st.act, some st.act⟩ rfl hm
  rw [h2 s]
  simp only
  rw [fold_set (fun _ => .trace)]
  constructor
  · intro hc; rw [if_pos ((handled_common s).2 hc)]
  · intro hc; rw [if_neg (fun h => hc ((handled_common s).1 h))]

/-- C281: without the traces enabled, disabling them changes nothing. -/
theorem C281_disabled (init : Signal → Action) (pre : List Op) (hp : ¬ Enabled pre) (s : Signal) :
    (run ⟨init, none⟩ (pre ++ [.trace false])).act s = (run ⟨init, none⟩ pre).act s := by
  have h0 := fold_saved_none pre ⟨init, none⟩ rfl hp
  rw [run_append]
  generalize run ⟨init, none⟩ pre = st at *
  show (setTrace st false).act s = _
  simp only [setTrace, h0]

/-- C281: when one of the seven signals comes, the stack is printed once, and then the process aborts with the action that SIGABRT had when the traces were
    enabled: a handler of the program for it is called. -/
theorem C281_delivered (init : Signal → Action) (pre mid : List Op) (hp : ¬ Enabled pre) (hm : Op.trace false ∉ mid) (s : Signal) (hs : Common s)
    (hl : lastSet s mid = none) (ha : ∀ op ∈ pre, op ≠ .action .abrt .trace) (hi : init .abrt ≠ .trace) :
    deliver (run ⟨init, none⟩ (pre ++ [.trace true] ++ mid)) s =
      .printed s :: (match (run ⟨init, none⟩ pre).act .abrt with | .user k => [.called k .abrt] | _ => []) ++ [.killed .abrt] := by
  have h0 := fold_saved_none pre ⟨init, none⟩ rfl hp
  have hn : (run ⟨init, none⟩ pre).act .abrt ≠ .trace := by
    -- the library's handler is there only between enabling and disabling
    have key : ∀ (ops : List Op), (∀ op ∈ ops, op ≠ .action .abrt .trace) →
        ((run ⟨init, none⟩ ops).saved = none → (run ⟨init, none⟩ ops).act .abrt ≠ .trace) ∧ (∀ o, (run ⟨init, none⟩ ops).saved = some o → o .abrt ≠ .trace) := by
      intro ops
      induction ops using List.reverseRecOn with
      | nil => intro _; exact ⟨fun _ => hi, fun o h => by cases h⟩
      | append_singleton ops op ih =>
        intro h
        obtain ⟨i1, i2⟩ := ih fun op hm => h op (by simp [hm])
        rw [run_append]
        generalize run ⟨init, none⟩ ops = st at *
        cases op with
        | action s a =>
          have ha : Op.action s a ≠ .action .abrt .trace := h _ (by simp)
          refine ⟨fun hs => ?_, fun o ho => i2 o ho⟩
          show setAction st.act s a .abrt ≠ .trace
          unfold setAction
          by_cases e : Signal.abrt = s
          · rw [if_pos e]; rintro rfl; exact ha (by rw [e])
          · rw [if_neg e]; exact i1 hs
        | trace b =>
          show ((setTrace st b).saved = none → (setTrace st b).act .abrt ≠ .trace) ∧ ∀ o, (setTrace st b).saved = some o → o .abrt ≠ .trace
          cases b <;> cases hv : st.saved with
          | none =>
            first
            | (have e : setTrace st false = st := by simp only [setTrace, hv]
               rw [e]; exact ⟨i1, i2⟩)
            | (simp only [setTrace, hv]
               refine ⟨fun h => (by cases h), fun o ho => ?_⟩
               cases ho
               exact i1 hv)
          | some o =>
            first
            | (have e : setTrace st true = st := by simp only [setTrace, hv]
               rw [e]; exact ⟨i1, i2⟩)
            | (simp only [setTrace, hv]
               refine ⟨fun _ => ?_, fun o ho => (by cases ho)⟩
               rw [fold_set, if_pos (by decide)]
               exact i2 o hv)
    exact (key pre ha).1 h0
  have hinst := (C281_installed init pre mid hp hm s).1 hs
  rw [hl] at hinst
  have hsav : (run ⟨init, none⟩ (pre ++ [.trace true] ++ mid)).saved = some (run ⟨init, none⟩ pre).act := by
    rw [run_append, run_append]
    generalize run ⟨init, none⟩ pre = st at *
    have e1 : run st [.trace true] = ⟨handled.foldl (fun f s => setAction f s .trace) st.act, some st.act⟩ := by
      show setTrace st true = _
      simp only [setTrace, h0]
    rw [e1]
    exact (mid_saved mid _ rfl hm).1
  generalize run ⟨init, none⟩ (pre ++ [.trace true] ++ mid) = st' at *
  generalize (run ⟨init, none⟩ pre).act = o at *
  unfold deliver
  rw [hinst]
  have e : (setTrace ⟨setAction st'.act s .dfl, st'.saved⟩ false).act .abrt = o .abrt := by
    simp only [setTrace, hsav]
    rw [fold_set, if_pos (by decide)]
  simp only [Option.getD_none, abort, e, List.cons_append, List.cons.injEq, true_and]
  cases ho : o .abrt with
  | trace => exact absurd ho hn
  | dfl => rfl
  | ign => rfl
  | user k => rfl

/-! ### Non-trivial cases -/

/-- A program with handlers of its own, that enables the traces twice. -/
def demo : List Op := [.action .abrt (.user 1), .action .int .ign, .trace false]

example : ¬ Enabled demo ∧ Op.trace false ∉ [Op.action .term (.user 2), .trace true, .action (.other 17) .ign] ∧
    deliver (run ⟨fun _ => .dfl, none⟩ (demo ++ [.trace true] ++ [.action .term (.user 2), .trace true, .action (.other 17) .ign])) .int =
      [.printed .int, .called 1 .abrt, .killed .abrt] ∧
    (run ⟨fun _ => .dfl, none⟩ (demo ++ [.trace true] ++ [.action .term (.user 2), .trace true, .action (.other 17) .ign] ++ [.trace false])).act .int = .ign := by
  refine ⟨?_, by simp, by decide, by decide⟩
  rintro ⟨pre, post, h, hn⟩
  unfold demo at h
  have hm : Op.trace true ∈ [Op.action .abrt (.user 1), .action .int .ign, .trace false] := by rw [h]; simp
  simp at hm

end Vital.SysInfo.Sig
