import Verif.Logger.Model
/-
  Threads that log (property C96) and threads that ask for loggers (property C97).

  Threads are numbered.  A step is one atomic action of one thread; every interleaving of steps is allowed (sequential consistency;
  torn or reordered memory accesses are not modelled).
-/
namespace Vital.Log
open Vital

/-! ### C96: the output of several threads -/

/-- A call of `log_x`. -/
structure Call where
  cur : Level
  method : Method
  stamp : Stamp
  msg : Str
  loc : Option Location

/-- The lines the call writes when nothing interferes. -/
def Call.lines (c : Call) : List Str := logCall c.cur c.method c.stamp c.msg c.loc

structure LogState where
  /-- the calls each thread still has to make -/
  todo : Nat → List Call
  /-- the holder of the static mutex, and the lines it still has to write -/
  holder : Option (Nat × List Str)
  /-- what is on the stream -/
  out : List Str

def setAt {α : Type} (f : Nat → α) (i : Nat) (a : α) : Nat → α := fun j => if j = i then a else f j

-- models: vital/logger/default_logger.cxx:94-225: the level test, the lock, one line of output, the end of the guard's scope
inductive LogStep : LogState → LogState → Prop
  | disabled (s : LogState) (i : Nat) (c : Call) (r : List Call) (h : s.todo i = c :: r) (hd : isEnabled c.cur c.method = false) :
      LogStep s { s with todo := setAt s.todo i r }
  | lock (s : LogState) (i : Nat) (c : Call) (r : List Call) (h : s.todo i = c :: r) (he : isEnabled c.cur c.method = true) (hl : s.holder = none) :
      LogStep s { s with todo := setAt s.todo i r, holder := some (i, c.lines) }
  | write (s : LogState) (i : Nat) (l : Str) (ls : List Str) (h : s.holder = some (i, l :: ls)) :
      LogStep s { s with holder := some (i, ls), out := s.out ++ [l] }
  | unlock (s : LogState) (i : Nat) (h : s.holder = some (i, [])) : LogStep s { s with holder := none }

inductive LogRuns : LogState → LogState → Prop
  | refl (s : LogState) : LogRuns s s
  | step {s t u : LogState} (h : LogRuns s t) (h' : LogStep t u) : LogRuns s u

/-- All calls have returned. -/
def Finished (s : LogState) : Prop := (∀ i, s.todo i = []) ∧ s.holder = none

/-- The calls of thread `i` in a sequence of calls. -/
def callsOf (i : Nat) (order : List (Nat × Call)) : List Call := (order.filter (fun e => decide (e.1 = i))).map (·.2)

theorem callsOf_snoc (i j : Nat) (c : Call) (order : List (Nat × Call)) : callsOf i (order ++ [(j, c)]) = if j = i then callsOf i order ++ [c] else callsOf i order := by
  unfold callsOf
  rw [List.filter_append]
  by_cases h : j = i
  · simp [h]
  · simp [h]

/-- C96, at any moment: there is a sequence of the calls begun so far that keeps each thread's order, and the stream holds the
    complete lines of these calls one call after the other, except for the lines the holder of the lock has not written yet. -/
theorem C96_always (prog : Nat → List Call) (out0 : List Str) {s : LogState} (h : LogRuns ⟨prog, none, out0⟩ s) :
    ∃ order : List (Nat × Call), (∀ i, callsOf i order ++ s.todo i = prog i) ∧
      out0 ++ (order.map (fun e => e.2.lines)).flatten = s.out ++ (s.holder.map (·.2)).getD [] := by
  generalize hs0 : (⟨prog, none, out0⟩ : LogState) = s0 at h
  induction h with
  | refl => subst hs0; exact ⟨[], by simp [callsOf], by simp⟩
  | step _ hst ih =>
    obtain ⟨order, h1, h2⟩ := ih
    cases hst with
    | disabled i c r ht hd =>
      refine ⟨order ++ [(i, c)], ?_, ?_⟩
      · intro j
        rw [callsOf_snoc, ← h1 j]
        unfold setAt
        by_cases hj : j = i
        · subst hj; simp [ht]
        · have : ¬ i = j := fun e => hj e.symm
          simp [hj, this]
      · have : c.lines = [] := by unfold Call.lines logCall; simp [hd]
        simpa [this] using h2
    | lock i c r ht he hl =>
      refine ⟨order ++ [(i, c)], ?_, ?_⟩
      · intro j
        rw [callsOf_snoc, ← h1 j]
        unfold setAt
        by_cases hj : j = i
        · subst hj; simp [ht]
        · have : ¬ i = j := fun e => hj e.symm
          simp [hj, this]
      · rw [hl] at h2
        simp at h2
        simp [← h2]
    | write i l ls ht =>
      refine ⟨order, h1, ?_⟩
      rw [ht] at h2
      simpa using h2
    | unlock i ht =>
      refine ⟨order, h1, ?_⟩
      rw [ht] at h2
      simpa using h2

/-- C96: when all calls have returned, the stream holds the lines of the calls, call after call, in an order that keeps the order
    of each thread's calls: no message is lost, repeated or mixed with another. -/
theorem C96_whole_messages (prog : Nat → List Call) (out0 : List Str) {s : LogState} (h : LogRuns ⟨prog, none, out0⟩ s) (hf : Finished s) :
    ∃ order : List (Nat × Call), (∀ i, callsOf i order = prog i) ∧ s.out = out0 ++ (order.map (fun e => e.2.lines)).flatten := by
  obtain ⟨order, h1, h2⟩ := C96_always prog out0 h
  refine ⟨order, ?_, ?_⟩
  · intro i
    have := h1 i
    rw [hf.1 i] at this
    simpa using this
  · rw [hf.2] at h2
    simpa using h2.symm

/-- No deadlock: unless all calls have returned, some thread can take a step. -/
theorem C96_progress (prog : Nat → List Call) (out0 : List Str) {s : LogState} (_h : LogRuns ⟨prog, none, out0⟩ s) (hn : ¬ Finished s) : ∃ t, LogStep s t := by
  cases hh : s.holder with
  | some p =>
    obtain ⟨i, ls⟩ := p
    cases ls with
    | nil => exact ⟨_, .unlock s i hh⟩
    | cons l ls => exact ⟨_, .write s i l ls hh⟩
  | none =>
    have : ∃ i, s.todo i ≠ [] := by
      apply Classical.byContradiction
      intro hc
      exact hn ⟨fun i => Classical.byContradiction fun hi => hc ⟨i, hi⟩, hh⟩
    obtain ⟨i, hi⟩ := this
    cases ht : s.todo i with
    | nil => exact absurd ht hi
    | cons c r =>
      cases he : isEnabled c.cur c.method with
      | true => exact ⟨_, .lock s i c r ht he hh⟩
      | false => exact ⟨_, .disabled s i c r ht he⟩

/-- Two threads, one with a message of two lines: a run that ends with whole messages. -/
def demoCall (m : Str) : Call := ⟨.info, .warn, ⟨[], 1⟩, m, none⟩
def demoProg : Nat → List Call := fun i => if i = 0 then [demoCall (c!"a\nb")] else if i = 1 then [demoCall (c!"c")] else []

theorem demoLines : (demoCall (c!"a\nb")).lines = [c!".1 WARN a\n", c!".1 WARN b\n"] ∧ (demoCall (c!"c")).lines = [c!".1 WARN c\n"] := by decide +kernel

example : ∃ s, LogRuns ⟨demoProg, none, []⟩ s ∧ Finished s ∧ s.out = [c!".1 WARN c\n", c!".1 WARN a\n", c!".1 WARN b\n"] := by
  refine ⟨_, .step (.step (.step (.step (.step (.step (.step (.refl _) (.lock _ 1 (demoCall (c!"c")) [] rfl rfl rfl)) (.write _ 1 _ [] (by rw [demoLines.2])))
    (.unlock _ 1 rfl)) (.lock _ 0 (demoCall (c!"a\nb")) [] rfl rfl rfl)) (.write _ 0 _ [c!".1 WARN b\n"] (by rw [demoLines.1])))
    (.write _ 0 _ [] rfl)) (.unlock _ 0 rfl), ⟨?_, rfl⟩, rfl⟩
  intro i
  simp only [setAt, demoProg]
  split
  · rfl
  · split
    · rfl
    · rfl

/-! ### C97: one manager -/

/-- Where a thread is in `kwiver_logger_manager::instance`. -/
-- models: vital/logger/kwiver_logger_manager.cxx:173-191
inductive PC
  | start            -- before the first test
  | waiting          -- the first test failed; before the lock
  | test             -- holds the lock, before the second test
  | construct        -- holds the lock, the second test failed
  | assign (k : Nat) -- object `k` constructed, not yet stored
  | load             -- holds the lock, before `return s_instance`
  | leave (k : Nat)  -- the value is read, the guard not yet destroyed
  | done (k : Nat)   -- returned object `k`
  deriving DecidableEq

structure MgrState where
  inst : Option Nat
  /-- number of managers constructed -/
  made : Nat
  lock : Option Nat
  pc : Nat → PC

-- models: vital/logger/kwiver_logger_manager.cxx:173-191 (kwiver_logger_manager::instance)
inductive MgrStep : MgrState → MgrState → Prop
  | fast (s : MgrState) (i k : Nat) (h : s.pc i = .start) (hi : s.inst = some k) : MgrStep s { s with pc := setAt s.pc i (.done k) }
  | slow (s : MgrState) (i : Nat) (h : s.pc i = .start) (hi : s.inst = none) : MgrStep s { s with pc := setAt s.pc i .waiting }
  | lock (s : MgrState) (i : Nat) (h : s.pc i = .waiting) (hl : s.lock = none) : MgrStep s { s with pc := setAt s.pc i .test, lock := some i }
  | found (s : MgrState) (i k : Nat) (h : s.pc i = .test) (hi : s.inst = some k) : MgrStep s { s with pc := setAt s.pc i .load }
  | missing (s : MgrState) (i : Nat) (h : s.pc i = .test) (hi : s.inst = none) : MgrStep s { s with pc := setAt s.pc i .construct }
  | construct (s : MgrState) (i : Nat) (h : s.pc i = .construct) : MgrStep s { s with pc := setAt s.pc i (.assign s.made), made := s.made + 1 }
  | assign (s : MgrState) (i k : Nat) (h : s.pc i = .assign k) : MgrStep s { s with pc := setAt s.pc i .load, inst := some k }
  | load (s : MgrState) (i k : Nat) (h : s.pc i = .load) (hi : s.inst = some k) : MgrStep s { s with pc := setAt s.pc i (.leave k) }
  | unlock (s : MgrState) (i k : Nat) (h : s.pc i = .leave k) : MgrStep s { s with pc := setAt s.pc i (.done k), lock := none }

inductive MgrRuns : MgrState → MgrState → Prop
  | refl (s : MgrState) : MgrRuns s s
  | step {s t u : MgrState} (h : MgrRuns s t) (h' : MgrStep t u) : MgrRuns s u

def mgrInit : MgrState := ⟨none, 0, none, fun _ => .start⟩

/-- In the critical section. -/
def PC.inside : PC → Bool
  | .test | .construct | .assign _ | .load | .leave _ => true
  | _ => false

/-- The invariant. -/
structure MgrInv (s : MgrState) : Prop where
  mutex : ∀ i, (s.pc i).inside = true ↔ s.lock = some i
  inst : ∀ k, s.inst = some k → k = 0 ∧ s.made = 1
  construct : ∀ i, s.pc i = .construct → s.inst = none ∧ s.made = 0
  assign : ∀ i k, s.pc i = .assign k → k = 0 ∧ s.inst = none ∧ s.made = 1
  load : ∀ i, s.pc i = .load → s.inst = some 0
  leave : ∀ i k, s.pc i = .leave k → k = 0 ∧ s.inst = some 0
  done : ∀ i k, s.pc i = .done k → k = 0 ∧ s.inst = some 0
  none_ : s.inst = none → s.made = 0 ∨ ∃ i k, s.pc i = .assign k

theorem setAt_same {α : Type} (f : Nat → α) (i : Nat) (a : α) : setAt f i a i = a := by simp [setAt]
theorem setAt_other {α : Type} (f : Nat → α) {i j : Nat} (a : α) (h : j ≠ i) : setAt f i a j = f j := by simp [setAt, h]

theorem mgr_alone {s : MgrState} (h : MgrInv s) {i j : Nat} (hi : (s.pc i).inside = true) (hj : (s.pc j).inside = true) : i = j := by
  have a := (h.mutex i).1 hi
  have b := (h.mutex j).1 hj
  rw [a] at b
  injection b

theorem mgr_inv_step {s t : MgrState} (h : MgrInv s) (st : MgrStep s t) : MgrInv t := by
  cases st with
  | fast i k hp hi =>
    refine ⟨?_, h.inst, ?_, ?_, ?_, ?_, ?_, ?_⟩
    · intro j
      by_cases e : j = i
      · subst e
        have := h.mutex j
        simp only [hp, PC.inside] at this
        simpa [setAt_same, PC.inside] using this
      · simpa [setAt_other _ _ e] using h.mutex j
    all_goals intro j
    · by_cases e : j = i
      · subst e; simp [setAt_same]
      · simpa [setAt_other _ _ e] using h.construct j
    · intro k'
      by_cases e : j = i
      · subst e; simp [setAt_same]
      · simpa [setAt_other _ _ e] using h.assign j k'
    · by_cases e : j = i
      · subst e; simp [setAt_same]
      · simpa [setAt_other _ _ e] using h.load j
    · intro k'
      by_cases e : j = i
      · subst e; simp [setAt_same]
      · simpa [setAt_other _ _ e] using h.leave j k'
    · intro k'
      by_cases e : j = i
      · subst e
        simp only [setAt_same, PC.done.injEq]
        rintro rfl
        have := (h.inst k hi).1
        exact ⟨this, by rw [hi, this]⟩
      · simpa [setAt_other _ _ e] using h.done j k'
    · rw [hi] at j; cases j
  | slow i hp hi =>
    refine ⟨?_, h.inst, ?_, ?_, ?_, ?_, ?_, ?_⟩
    · intro j
      by_cases e : j = i
      · subst e
        have := h.mutex j
        simp only [hp, PC.inside] at this
        simpa [setAt_same, PC.inside] using this
      · simpa [setAt_other _ _ e] using h.mutex j
    · intro j
      by_cases e : j = i
      · subst e; simp [setAt_same]
      · simpa [setAt_other _ _ e] using h.construct j
    · intro j k'
      by_cases e : j = i
      · subst e; simp [setAt_same]
      · simpa [setAt_other _ _ e] using h.assign j k'
    · intro j
      by_cases e : j = i
      · subst e; simp [setAt_same]
      · simpa [setAt_other _ _ e] using h.load j
    · intro j k'
      by_cases e : j = i
      · subst e; simp [setAt_same]
      · simpa [setAt_other _ _ e] using h.leave j k'
    · intro j k'
      by_cases e : j = i
      · subst e; simp [setAt_same]
      · simpa [setAt_other _ _ e] using h.done j k'
    · intro hn
      rcases h.none_ hn with h0 | ⟨j, k, hj⟩
      · exact .inl h0
      · refine .inr ⟨j, k, ?_⟩
        have : j ≠ i := by intro e; subst e; rw [hp] at hj; cases hj
        simpa [setAt_other _ _ this] using hj
  | lock i hp hl =>
    have hno : ∀ j, (s.pc j).inside = false := by
      intro j
      cases hj : (s.pc j).inside with
      | false => rfl
      | true => have := (h.mutex j).1 hj; rw [hl] at this; cases this
    refine ⟨?_, h.inst, ?_, ?_, ?_, ?_, ?_, ?_⟩
    · intro j
      by_cases e : j = i
      · subst e; simp [setAt_same, PC.inside]
      · simp [setAt_other _ _ e, hno j, Ne.symm e]
    · intro j
      by_cases e : j = i
      · subst e; simp [setAt_same]
      · simpa [setAt_other _ _ e] using h.construct j
    · intro j k'
      by_cases e : j = i
      · subst e; simp [setAt_same]
      · simpa [setAt_other _ _ e] using h.assign j k'
    · intro j
      by_cases e : j = i
      · subst e; simp [setAt_same]
      · simpa [setAt_other _ _ e] using h.load j
    · intro j k'
      by_cases e : j = i
      · subst e; simp [setAt_same]
      · simpa [setAt_other _ _ e] using h.leave j k'
    · intro j k'
      by_cases e : j = i
      · subst e; simp [setAt_same]
      · simpa [setAt_other _ _ e] using h.done j k'
    · intro hn
      rcases h.none_ hn with h0 | ⟨j, k, hj⟩
      · exact .inl h0
      · have := hno j; rw [hj] at this; cases this
  | found i k hp hi =>
    refine ⟨?_, h.inst, ?_, ?_, ?_, ?_, ?_, ?_⟩
    · intro j
      by_cases e : j = i
      · subst e
        have := h.mutex j
        simp only [hp, PC.inside] at this
        simpa [setAt_same, PC.inside] using this
      · simpa [setAt_other _ _ e] using h.mutex j
    · intro j
      by_cases e : j = i
      · subst e; simp [setAt_same]
      · simpa [setAt_other _ _ e] using h.construct j
    · intro j k'
      by_cases e : j = i
      · subst e; simp [setAt_same]
      · simpa [setAt_other _ _ e] using h.assign j k'
    · intro j
      by_cases e : j = i
      · subst e
        intro _
        show s.inst = some 0
        rw [hi, (h.inst k hi).1]
      · simpa [setAt_other _ _ e] using h.load j
    · intro j k'
      by_cases e : j = i
      · subst e; simp [setAt_same]
      · simpa [setAt_other _ _ e] using h.leave j k'
    · intro j k'
      by_cases e : j = i
      · subst e; simp [setAt_same]
      · simpa [setAt_other _ _ e] using h.done j k'
    · intro hn
      rw [hi] at hn; cases hn
  | missing i hp hi =>
    have hin : (s.pc i).inside = true := by rw [hp]; rfl
    refine ⟨?_, h.inst, ?_, ?_, ?_, ?_, ?_, ?_⟩
    · intro j
      by_cases e : j = i
      · subst e
        have := h.mutex j
        simp only [hp, PC.inside] at this
        simpa [setAt_same, PC.inside] using this
      · simpa [setAt_other _ _ e] using h.mutex j
    · intro j
      by_cases e : j = i
      · subst e
        intro _
        refine ⟨hi, ?_⟩
        rcases h.none_ hi with h0 | ⟨j', k, hj⟩
        · exact h0
        · have := mgr_alone h hin (j := j') (by rw [hj]; rfl)
          subst this
          rw [hp] at hj; cases hj
      · simpa [setAt_other _ _ e] using h.construct j
    · intro j k'
      by_cases e : j = i
      · subst e; simp [setAt_same]
      · simpa [setAt_other _ _ e] using h.assign j k'
    · intro j
      by_cases e : j = i
      · subst e; simp [setAt_same]
      · simpa [setAt_other _ _ e] using h.load j
    · intro j k'
      by_cases e : j = i
      · subst e; simp [setAt_same]
      · simpa [setAt_other _ _ e] using h.leave j k'
    · intro j k'
      by_cases e : j = i
      · subst e; simp [setAt_same]
      · simpa [setAt_other _ _ e] using h.done j k'
    · intro hn
      rcases h.none_ hn with h0 | ⟨j', k, hj⟩
      · exact .inl h0
      · have := mgr_alone h hin (j := j') (by rw [hj]; rfl)
        subst this
        rw [hp] at hj; cases hj
  | construct i hp =>
    have hin : (s.pc i).inside = true := by rw [hp]; rfl
    obtain ⟨hn, hm⟩ := h.construct i hp
    have honly : ∀ j, j ≠ i → (s.pc j).inside = false := by
      intro j hj
      cases hj' : (s.pc j).inside with
      | false => rfl
      | true => exact absurd (mgr_alone h hj' hin) hj
    refine ⟨?_, ?_, ?_, ?_, ?_, ?_, ?_, ?_⟩
    · intro j
      by_cases e : j = i
      · subst e
        have := h.mutex j
        simp only [hp, PC.inside] at this
        simpa [setAt_same, PC.inside] using this
      · simpa [setAt_other _ _ e] using h.mutex j
    · intro k hk
      have hk : s.inst = some k := hk
      rw [hn] at hk; cases hk
    · intro j hj
      by_cases e : j = i
      · subst e; simp [setAt_same] at hj
      · have hj : s.pc j = .construct := by simpa [setAt_other _ _ e] using hj
        have := honly j e
        rw [hj] at this; cases this
    · intro j k' hj
      by_cases e : j = i
      · subst e
        simp [setAt_same, hm] at hj
        exact ⟨hj.symm, hn, by simp [hm]⟩
      · have hj : s.pc j = .assign k' := by simpa [setAt_other _ _ e] using hj
        have := honly j e
        rw [hj] at this; cases this
    · intro j
      by_cases e : j = i
      · subst e; simp [setAt_same]
      · simpa [setAt_other _ _ e] using h.load j
    · intro j k'
      by_cases e : j = i
      · subst e; simp [setAt_same]
      · simpa [setAt_other _ _ e] using h.leave j k'
    · intro j k'
      by_cases e : j = i
      · subst e; simp [setAt_same]
      · simpa [setAt_other _ _ e] using h.done j k'
    · intro _
      exact .inr ⟨i, s.made, by simp [setAt_same]⟩
  | assign i k hp =>
    have hin : (s.pc i).inside = true := by rw [hp]; rfl
    obtain ⟨hk, hn, hm⟩ := h.assign i k hp
    subst hk
    have honly : ∀ j, j ≠ i → (s.pc j).inside = false := by
      intro j hj
      cases hj' : (s.pc j).inside with
      | false => rfl
      | true => exact absurd (mgr_alone h hj' hin) hj
    refine ⟨?_, ?_, ?_, ?_, ?_, ?_, ?_, ?_⟩
    · intro j
      by_cases e : j = i
      · subst e
        have := h.mutex j
        simp only [hp, PC.inside] at this
        simpa [setAt_same, PC.inside] using this
      · simpa [setAt_other _ _ e] using h.mutex j
    · intro k hk
      simp at hk
      exact ⟨hk.symm, hm⟩
    · intro j hj
      by_cases e : j = i
      · subst e; simp [setAt_same] at hj
      · have hj : s.pc j = .construct := by simpa [setAt_other _ _ e] using hj
        have := honly j e
        rw [hj] at this; cases this
    · intro j k' hj
      by_cases e : j = i
      · subst e; simp [setAt_same] at hj
      · have hj : s.pc j = .assign k' := by simpa [setAt_other _ _ e] using hj
        have := honly j e
        rw [hj] at this; cases this
    · intro j _; rfl
    · intro j k' hj
      by_cases e : j = i
      · subst e; simp [setAt_same] at hj
      · have hj : s.pc j = .leave k' := by simpa [setAt_other _ _ e] using hj
        have := honly j e
        rw [hj] at this; cases this
    · intro j k' hj
      by_cases e : j = i
      · subst e; simp [setAt_same] at hj
      · have hj : s.pc j = .done k' := by simpa [setAt_other _ _ e] using hj
        exact ⟨(h.done j k' hj).1, rfl⟩
    · intro hn; cases hn
  | load i k hp hi =>
    refine ⟨?_, h.inst, ?_, ?_, ?_, ?_, ?_, ?_⟩
    · intro j
      by_cases e : j = i
      · subst e
        have := h.mutex j
        simp only [hp, PC.inside] at this
        simpa [setAt_same, PC.inside] using this
      · simpa [setAt_other _ _ e] using h.mutex j
    · intro j
      by_cases e : j = i
      · subst e; simp [setAt_same]
      · simpa [setAt_other _ _ e] using h.construct j
    · intro j k'
      by_cases e : j = i
      · subst e; simp [setAt_same]
      · simpa [setAt_other _ _ e] using h.assign j k'
    · intro j
      by_cases e : j = i
      · subst e; simp [setAt_same]
      · simpa [setAt_other _ _ e] using h.load j
    · intro j k'
      by_cases e : j = i
      · subst e
        simp only [setAt_same, PC.leave.injEq]
        rintro rfl
        have := (h.inst k hi).1
        exact ⟨this, by rw [hi, this]⟩
      · simpa [setAt_other _ _ e] using h.leave j k'
    · intro j k'
      by_cases e : j = i
      · subst e; simp [setAt_same]
      · simpa [setAt_other _ _ e] using h.done j k'
    · intro hn
      rw [hi] at hn; cases hn
  | unlock i k hp =>
    have hin : (s.pc i).inside = true := by rw [hp]; rfl
    have honly : ∀ j, j ≠ i → (s.pc j).inside = false := by
      intro j hj
      cases hj' : (s.pc j).inside with
      | false => rfl
      | true => exact absurd (mgr_alone h hj' hin) hj
    obtain ⟨hk, hi⟩ := h.leave i k hp
    refine ⟨?_, h.inst, ?_, ?_, ?_, ?_, ?_, ?_⟩
    · intro j
      by_cases e : j = i
      · subst e; simp [setAt_same, PC.inside]
      · simp [setAt_other _ _ e, honly j e]
    · intro j
      by_cases e : j = i
      · subst e; simp [setAt_same]
      · simpa [setAt_other _ _ e] using h.construct j
    · intro j k'
      by_cases e : j = i
      · subst e; simp [setAt_same]
      · simpa [setAt_other _ _ e] using h.assign j k'
    · intro j
      by_cases e : j = i
      · subst e; simp [setAt_same]
      · simpa [setAt_other _ _ e] using h.load j
    · intro j k'
      by_cases e : j = i
      · subst e; simp [setAt_same]
      · simpa [setAt_other _ _ e] using h.leave j k'
    · intro j k'
      by_cases e : j = i
      · subst e
        simp only [setAt_same, PC.done.injEq]
        rintro rfl
        exact ⟨hk, hi⟩
      · simpa [setAt_other _ _ e] using h.done j k'
    · intro hn
      have hn : s.inst = none := hn
      rw [hi] at hn; cases hn

theorem mgr_inv {s : MgrState} (h : MgrRuns mgrInit s) : MgrInv s := by
  generalize hs0 : mgrInit = s0 at h
  induction h with
  | refl =>
    subst hs0
    constructor <;> simp [mgrInit, PC.inside]
  | step _ st ih => exact mgr_inv_step (ih) st

/-- C97: however the threads are scheduled, at most one manager is constructed and every call of `instance` returns it. -/
theorem C97_one_manager {s : MgrState} (h : MgrRuns mgrInit s) :
    s.made ≤ 1 ∧ (∀ i j k l, s.pc i = .done k → s.pc j = .done l → k = l) ∧ (∀ i k, s.pc i = .done k → s.inst = some k) := by
  have inv := mgr_inv h
  refine ⟨?_, ?_, ?_⟩
  · cases hi : s.inst with
    | some k => have := (inv.inst k hi).2; omega
    | none =>
      rcases inv.none_ hi with h0 | ⟨i, k, hk⟩
      · omega
      · have := (inv.assign i k hk).2.2; omega
  · intro i j k l hk hl
    rw [(inv.done i k hk).1, (inv.done j l hl).1]
  · intro i k hk
    have := inv.done i k hk
    rw [this.2, this.1]

/-- No deadlock: a thread that has not returned can take a step, unless another one holds the lock, which can. -/
theorem C97_progress {s : MgrState} (h : MgrRuns mgrInit s) {i : Nat} (hi : ∀ k, s.pc i ≠ .done k) : ∃ t, MgrStep s t := by
  have inv := mgr_inv h
  cases hp : s.pc i with
  | start =>
    cases hn : s.inst with
    | none => exact ⟨_, .slow s i hp hn⟩
    | some k => exact ⟨_, .fast s i k hp hn⟩
  | waiting =>
    cases hl : s.lock with
    | none => exact ⟨_, .lock s i hp hl⟩
    | some j =>
      have hj := (inv.mutex j).2 hl
      cases hq : s.pc j with
      | start => rw [hq] at hj; cases hj
      | waiting => rw [hq] at hj; cases hj
      | done k => rw [hq] at hj; cases hj
      | test =>
        cases hn : s.inst with
        | none => exact ⟨_, .missing s j hq hn⟩
        | some k => exact ⟨_, .found s j k hq hn⟩
      | construct => exact ⟨_, .construct s j hq⟩
      | assign k => exact ⟨_, .assign s j k hq⟩
      | load => exact ⟨_, .load s j 0 hq (inv.load j hq)⟩
      | leave k => exact ⟨_, .unlock s j k hq⟩
  | test =>
    cases hn : s.inst with
    | none => exact ⟨_, .missing s i hp hn⟩
    | some k => exact ⟨_, .found s i k hp hn⟩
  | construct => exact ⟨_, .construct s i hp⟩
  | assign k => exact ⟨_, .assign s i k hp⟩
  | load => exact ⟨_, .load s i 0 hp (inv.load i hp)⟩
  | leave k => exact ⟨_, .unlock s i k hp⟩
  | done k => exact absurd hp (hi k)

/-- A run in which two threads pass the first test. -/
example : ∃ s, MgrRuns mgrInit s ∧ s.pc 0 = .done 0 ∧ s.pc 1 = .done 0 ∧ s.made = 1 := by
  refine ⟨_, .step (.step (.step (.step (.step (.step (.step (.step (.step (.step (.step (.step (.refl _) (.slow _ 0 rfl rfl)) (.slow _ 1 rfl rfl)) (.lock _ 1 rfl rfl))
    (.missing _ 1 rfl rfl)) (.construct _ 1 rfl)) (.assign _ 1 0 rfl)) (.load _ 1 0 rfl rfl)) (.unlock _ 1 0 rfl)) (.lock _ 0 rfl rfl)) (.found _ 0 0 rfl rfl))
    (.load _ 0 0 rfl rfl)) (.unlock _ 0 0 rfl), rfl, rfl, rfl⟩

/-! ### C97: one logger per name -/

/-- Where a thread is in `logger_factory_default::get_logger( name )`. -/
-- models: vital/logger/default_logger.cxx:262-276
inductive GPC
  | start (name : Str)
  | missed (name : Str)
  | made (name : Str) (k : Nat)
  | done (name : Str) (k : Nat)
  deriving DecidableEq

structure FacState where
  active : Str → Option Nat
  count : Nat
  pc : Nat → GPC

-- models: vital/logger/default_logger.cxx:262-276 (no lock is taken; the map operations are taken as atomic here)
inductive FacStep : FacState → FacState → Prop
  | hit (s : FacState) (i : Nat) (n : Str) (k : Nat) (h : s.pc i = .start n) (ha : s.active n = some k) : FacStep s { s with pc := setAt s.pc i (.done n k) }
  | miss (s : FacState) (i : Nat) (n : Str) (h : s.pc i = .start n) (ha : s.active n = none) : FacStep s { s with pc := setAt s.pc i (.missed n) }
  | make (s : FacState) (i : Nat) (n : Str) (h : s.pc i = .missed n) : FacStep s { s with pc := setAt s.pc i (.made n s.count), count := s.count + 1 }
  | store (s : FacState) (i : Nat) (n : Str) (k : Nat) (h : s.pc i = .made n k) :
      FacStep s { s with pc := setAt s.pc i (.done n k), active := fun m => if m = n then some k else s.active m }

inductive FacRuns : FacState → FacState → Prop
  | refl (s : FacState) : FacRuns s s
  | step {s t u : FacState} (h : FacRuns s t) (h' : FacStep t u) : FacRuns s u

/-- The full claim: calls of `get_logger` with one name return one logger, however they are scheduled. -/
def C97_statement : Prop := ∀ (names : Nat → Str) (s : FacState), FacRuns ⟨fun _ => none, 0, fun i => .start (names i)⟩ s →
  ∀ i j n k l, s.pc i = .done n k → s.pc j = .done n l → k = l

/-- It is false: two threads may both miss the name and make two loggers. -/
theorem C97_refuted : ¬ C97_statement := by
  intro h
  have := h (fun _ => c!"x") _ (.step (.step (.step (.step (.step (.step (.refl _) (.miss _ 0 (c!"x") rfl rfl)) (.miss _ 1 (c!"x") rfl rfl)) (.make _ 0 (c!"x") rfl))
    (.make _ 1 (c!"x") rfl)) (.store _ 0 (c!"x") 0 rfl)) (.store _ 1 (c!"x") 1 rfl)) 0 1 (c!"x") 0 1 rfl rfl
  exact absurd this (by decide)

/-- The thread has missed the name `n` and has not yet returned. -/
def GPC.busy (n : Str) : GPC → Bool
  | .missed m => decide (m = n)
  | .made m _ => decide (m = n)
  | _ => false

/-- Runs in which the calls that have to make the logger of a name do not overlap (calls with other names may). -/
inductive SerialRuns : FacState → FacState → Prop
  | refl (s : FacState) : SerialRuns s s
  | step {s t u : FacState} (h : SerialRuns s t) (h' : FacStep t u)
      (hs : ∀ n i j, (u.pc i).busy n = true → (u.pc j).busy n = true → i = j) : SerialRuns s u

theorem C97_inv (names : Nat → Str) {s : FacState} (h : SerialRuns ⟨fun _ => none, 0, fun i => .start (names i)⟩ s) :
    (∀ i n k, s.pc i = .done n k → s.active n = some k) ∧ (∀ i n, s.pc i = .missed n → s.active n = none) ∧
      (∀ i n k, s.pc i = .made n k → s.active n = none) ∧ (∀ n i j, (s.pc i).busy n = true → (s.pc j).busy n = true → i = j) := by
  generalize hs0 : (⟨fun _ => none, 0, fun i => .start (names i)⟩ : FacState) = s0 at h
  induction h with
  | refl => subst hs0; simp [GPC.busy]
  | @step t u _ st hs ih =>
    obtain ⟨h1, h2, h3, h4⟩ := ih
    refine ⟨?_, ?_, ?_, hs⟩ <;> clear hs
    all_goals cases st with
    | hit i n k hp ha =>
      intro j m
      by_cases e : j = i
      · subst e
        simp [setAt_same]
        try (rintro rfl; exact ha)
      · simp only [setAt_other _ _ e]
        first | exact h1 j m | exact h2 j m | exact h3 j m
    | miss i n hp ha =>
      intro j m
      by_cases e : j = i
      · subst e
        simp [setAt_same]
        try (rintro rfl; exact ha)
      · simp only [setAt_other _ _ e]
        first | exact h1 j m | exact h2 j m | exact h3 j m
    | make i n hp =>
      intro j m
      by_cases e : j = i
      · subst e
        simp [setAt_same]
        try (rintro rfl; exact h2 j n hp)
      · simp only [setAt_other _ _ e]
        first | exact h1 j m | exact h2 j m | exact h3 j m
    | store i n k hp =>
      have hn := h3 i n k hp
      have alone : ∀ j, j ≠ i → (t.pc j).busy n = false := by
        intro j hj
        cases hb : (t.pc j).busy n with
        | false => rfl
        | true => exact absurd (h4 n j i hb (by simp [hp, GPC.busy])) hj
      intro j m
      by_cases e : j = i
      · subst e
        simp [setAt_same]
        try (rintro rfl hh; exact absurd rfl hh)
      · simp only [setAt_other _ _ e]
        by_cases em : m = n
        · subst em
          first
          | (intro l hl; have := h1 j m l hl; rw [hn] at this; cases this)
          | (intro hl; have := alone j e; rw [hl] at this; simp [GPC.busy] at this)
          | (intro l hl; have := alone j e; rw [hl] at this; simp [GPC.busy] at this)
        · simp only [em, if_false]
          first | exact h1 j m | exact h2 j m | exact h3 j m

/-- The claim holds when the calls that make the logger of a name do not overlap. -/
theorem C97_partial (names : Nat → Str) {s : FacState} (h : SerialRuns ⟨fun _ => none, 0, fun i => .start (names i)⟩ s) :
    ∀ i j n k l, s.pc i = .done n k → s.pc j = .done n l → k = l := by
  intro i j n k l hi hj
  have a := (C97_inv names h).1 i n k hi
  have b := (C97_inv names h).1 j n l hj
  rw [a] at b
  injection b

/-- Two threads ask for one name one after the other. -/
example : ∃ s, SerialRuns ⟨fun _ => none, 0, fun i => .start (if i ≤ 1 then c!"x" else c!"y")⟩ s ∧ s.pc 0 = .done (c!"x") 0 ∧ s.pc 1 = .done (c!"x") 0 := by
  refine ⟨_, .step (.step (.step (.step (.refl _) (.miss _ 0 (c!"x") rfl rfl) ?_) (.make _ 0 (c!"x") rfl) ?_) (.store _ 0 (c!"x") 0 rfl) ?_)
    (.hit _ 1 (c!"x") 0 rfl rfl) ?_, rfl, rfl⟩
  all_goals
    intro n i j
    simp only [setAt]
    (repeat' split) <;> simp_all [GPC.busy]

end Vital.Log
