import Verif.Logger.Threads
/-
  `algorithm_plugin_manager::load_plugins_once` and `::instance` called by any number of threads (property C137).

  Threads are numbered; a step is one atomic action of one thread, every interleaving is allowed (sequential consistency; the
  unsynchronised reads of the flag and of the pointer are not modelled as data races).  Every thread may call any number of times.
-/
namespace Vital.Plugin
open Vital Vital.Log

/-- How a call of `load_plugins_once` ends. -/
inductive Ret
  | yes    -- returned true
  | no     -- returned false
  | threw  -- `register_plugins` threw an exception
  deriving DecidableEq

/-- Where a thread is. -/
-- models: vital/algorithm_plugin_manager.cxx:337-360
inductive OPC
  | out               -- not in a call
  | waiting           -- the first test found the flag set; before the lock
  | test              -- holds the lock, before the second test
  | loading           -- holds the lock, inside register_plugins
  | store             -- holds the lock, the plugins are loaded, the flag not yet cleared
  | leave (r : Ret)   -- holds the lock, about to return
  deriving DecidableEq

structure OnceState where
  /-- the static variable `first` -/
  first : Bool
  lock : Option Nat
  pc : Nat → OPC
  /-- how many times `register_plugins` ran to its end -/
  loads : Nat
  /-- the calls that have ended, in the order in which they ended -/
  ended : List (Nat × Ret)

-- models: vital/algorithm_plugin_manager.cxx:337-360 (load_plugins_once)
inductive OnceStep : OnceState → OnceState → Prop
  | fast (s : OnceState) (i : Nat) (h : s.pc i = .out) (hf : s.first = false) : OnceStep s { s with ended := s.ended ++ [(i, .no)] }
  | slow (s : OnceState) (i : Nat) (h : s.pc i = .out) (hf : s.first = true) : OnceStep s { s with pc := setAt s.pc i .waiting }
  | lock (s : OnceState) (i : Nat) (h : s.pc i = .waiting) (hl : s.lock = none) : OnceStep s { s with pc := setAt s.pc i .test, lock := some i }
  | late (s : OnceState) (i : Nat) (h : s.pc i = .test) (hf : s.first = false) : OnceStep s { s with pc := setAt s.pc i (.leave .no) }
  | begin (s : OnceState) (i : Nat) (h : s.pc i = .test) (hf : s.first = true) : OnceStep s { s with pc := setAt s.pc i .loading }
  | finish (s : OnceState) (i : Nat) (h : s.pc i = .loading) : OnceStep s { s with pc := setAt s.pc i .store, loads := s.loads + 1 }
  | throw (s : OnceState) (i : Nat) (h : s.pc i = .loading) : OnceStep s { s with pc := setAt s.pc i (.leave .threw) }
  | store (s : OnceState) (i : Nat) (h : s.pc i = .store) : OnceStep s { s with pc := setAt s.pc i (.leave .yes), first := false }
  | unlock (s : OnceState) (i : Nat) (r : Ret) (h : s.pc i = .leave r) : OnceStep s { s with pc := setAt s.pc i .out, lock := none, ended := s.ended ++ [(i, r)] }

inductive OnceRuns : OnceState → OnceState → Prop
  | refl (s : OnceState) : OnceRuns s s
  | step {s t u : OnceState} (h : OnceRuns s t) (h' : OnceStep t u) : OnceRuns s u

def onceInit : OnceState := ⟨true, none, fun _ => .out, 0, []⟩

def OPC.inside : OPC → Bool
  | .out | .waiting => false
  | _ => true

/-- Number of calls that returned true. -/
def yeses (l : List (Nat × Ret)) : Nat := (l.filter (fun e => decide (e.2 = .yes))).length

theorem yeses_snoc (l : List (Nat × Ret)) (e : Nat × Ret) : yeses (l ++ [e]) = yeses l + if e.2 = .yes then 1 else 0 := by
  unfold yeses
  rw [List.filter_append, List.length_append]
  by_cases h : e.2 = .yes <;> simp [h]

/-- The state of affairs, by what the holder of the lock is doing. -/
inductive Inv1 (s : OnceState) : Prop
  | free (hl : s.lock = none) (hp : ∀ i, (s.pc i).inside = false)
      (hf : (s.first = true ∧ s.loads = 0 ∧ yeses s.ended = 0) ∨ (s.first = false ∧ s.loads = 1 ∧ yeses s.ended = 1)) : Inv1 s
  | held (i : Nat) (hl : s.lock = some i) (hp : ∀ j, j ≠ i → (s.pc j).inside = false)
      (hf : match s.pc i with
        | .out | .waiting => False
        | .test => (s.first = true ∧ s.loads = 0 ∧ yeses s.ended = 0) ∨ (s.first = false ∧ s.loads = 1 ∧ yeses s.ended = 1)
        | .loading => s.first = true ∧ s.loads = 0 ∧ yeses s.ended = 0
        | .store => s.first = true ∧ s.loads = 1 ∧ yeses s.ended = 0
        | .leave .yes => s.first = false ∧ s.loads = 1 ∧ yeses s.ended = 0
        | .leave .no => s.first = false ∧ s.loads = 1 ∧ yeses s.ended = 1
        | .leave .threw => s.first = true ∧ s.loads = 0 ∧ yeses s.ended = 0) : Inv1 s

/-- The invariant. -/
structure OnceInv (s : OnceState) : Prop where
  shape : Inv1 s
  results : ∀ e ∈ s.ended, e.2 ≠ .threw → s.loads = 1

theorem once_inv_step {s t : OnceState} (h : OnceInv s) (st : OnceStep s t) : OnceInv t := by
  have other : ∀ (f : Nat → OPC) {i j : Nat} (a : OPC), j ≠ i → setAt f i a j = f j := fun f i j a h => setAt_other f a h
  have ext : ∀ (e : Nat × Ret), (e.2 ≠ .threw → s.loads = 1) → ∀ x ∈ s.ended ++ [e], x.2 ≠ .threw → s.loads = 1 := by
    intro e he x hx hxe
    rw [List.mem_append] at hx
    rcases hx with hx | hx
    · exact h.results x hx hxe
    · simp at hx; subst hx; exact he hxe
  cases st with
  | fast i hp hf =>
    have hl1 : s.loads = 1 := by
      cases h.shape with
      | free hl hq hff =>
        rcases hff with hff | hff
        · rw [hf] at hff; cases hff.1
        · exact hff.2.1
      | held j hl hq hff =>
        rw [hf] at hff
        split at hff <;> first | exact absurd hff id | (rcases hff with hff | hff <;> first | (cases hff.1; done) | exact hff.2.1) | (cases hff.1; done) | exact hff.2.1
    refine ⟨?_, ext _ (fun _ => hl1)⟩
    have hy : yeses (s.ended ++ [(i, .no)]) = yeses s.ended := by rw [yeses_snoc]; simp
    cases h.shape with
    | free hl hq hff => exact .free hl hq (by simpa only [hy] using hff)
    | held j hl hq hff => exact .held j hl hq (by simpa only [hy] using hff)
  | slow i hp hf =>
    refine ⟨?_, h.results⟩
    cases h.shape with
    | free hl hq hff =>
      refine .free hl (fun j => ?_) hff
      by_cases e : j = i
      · subst e; simp [setAt_same, OPC.inside]
      · simpa [other s.pc _ e] using hq j
    | held k hl hq hff =>
      have hk : k ≠ i := by rintro rfl; rw [hp] at hff; exact hff
      refine .held k hl (fun j hj => ?_) ?_
      · by_cases e : j = i
        · subst e; simp [setAt_same, OPC.inside]
        · simpa [other s.pc _ e] using hq j hj
      · simpa only [other s.pc _ hk] using hff
  | lock i hp hl =>
    refine ⟨?_, h.results⟩
    cases h.shape with
    | free _ hq hff =>
      refine .held i rfl (fun j hj => ?_) ?_
      · simpa [other s.pc _ hj] using hq j
      · simpa only [setAt_same] using hff
    | held k hl' hq hff => rw [hl] at hl'; cases hl'
  | late i hp hf =>
    refine ⟨?_, h.results⟩
    cases h.shape with
    | free _ hq hff => have := hq i; rw [hp] at this; cases this
    | held k hl hq hff =>
      have hk : k = i := Classical.byContradiction fun e => by have := hq i (Ne.symm e); rw [hp] at this; cases this
      subst hk
      rw [hp] at hff
      refine .held k hl (fun j hj => ?_) ?_
      · simpa [other s.pc _ hj] using hq j hj
      · simp only [setAt_same]
        rcases hff with hff | hff
        · rw [hf] at hff; cases hff.1
        · exact hff
  | begin i hp hf =>
    refine ⟨?_, h.results⟩
    cases h.shape with
    | free _ hq hff => have := hq i; rw [hp] at this; cases this
    | held k hl hq hff =>
      have hk : k = i := Classical.byContradiction fun e => by have := hq i (Ne.symm e); rw [hp] at this; cases this
      subst hk
      rw [hp] at hff
      refine .held k hl (fun j hj => ?_) ?_
      · simpa [other s.pc _ hj] using hq j hj
      · simp only [setAt_same]
        rcases hff with hff | hff
        · exact hff
        · rw [hf] at hff; cases hff.1
  | finish i hp =>
    cases h.shape with
    | free _ hq hff => have := hq i; rw [hp] at this; cases this
    | held k hl hq hff =>
      have hk : k = i := Classical.byContradiction fun e => by have := hq i (Ne.symm e); rw [hp] at this; cases this
      subst hk
      rw [hp] at hff
      refine ⟨.held k hl (fun j hj => ?_) ?_, ?_⟩
      · simpa [other s.pc _ hj] using hq j hj
      · simp only [setAt_same]
        exact ⟨hff.1, by rw [hff.2.1], hff.2.2⟩
      · intro e he hne
        have := h.results e he hne
        rw [hff.2.1] at this
        cases this
  | throw i hp =>
    refine ⟨?_, h.results⟩
    cases h.shape with
    | free _ hq hff => have := hq i; rw [hp] at this; cases this
    | held k hl hq hff =>
      have hk : k = i := Classical.byContradiction fun e => by have := hq i (Ne.symm e); rw [hp] at this; cases this
      subst hk
      rw [hp] at hff
      refine .held k hl (fun j hj => ?_) ?_
      · simpa [other s.pc _ hj] using hq j hj
      · simp only [setAt_same]; exact hff
  | store i hp =>
    refine ⟨?_, h.results⟩
    cases h.shape with
    | free _ hq hff => have := hq i; rw [hp] at this; cases this
    | held k hl hq hff =>
      have hk : k = i := Classical.byContradiction fun e => by have := hq i (Ne.symm e); rw [hp] at this; cases this
      subst hk
      rw [hp] at hff
      refine .held k hl (fun j hj => ?_) ?_
      · simpa [other s.pc _ hj] using hq j hj
      · simp only [setAt_same]; exact ⟨trivial, hff.2⟩
  | unlock i r hp =>
    cases h.shape with
    | free _ hq hff => have := hq i; rw [hp] at this; cases this
    | held k hl hq hff =>
      have hk : k = i := Classical.byContradiction fun e => by have := hq i (Ne.symm e); rw [hp] at this; cases this
      subst hk
      rw [hp] at hff
      have hin : ∀ j, (setAt s.pc k .out j).inside = false := by
        intro j
        by_cases e : j = k
        · subst e; simp [setAt_same, OPC.inside]
        · simpa [other s.pc _ e] using hq j e
      cases r with
      | yes =>
        refine ⟨.free rfl hin (.inr ⟨hff.1, hff.2.1, ?_⟩), ext _ (fun _ => hff.2.1)⟩
        show yeses (s.ended ++ [(k, .yes)]) = 1
        rw [yeses_snoc, hff.2.2]; rfl
      | no =>
        refine ⟨.free rfl hin (.inr ⟨hff.1, hff.2.1, ?_⟩), ext _ (fun _ => hff.2.1)⟩
        show yeses (s.ended ++ [(k, .no)]) = 1
        rw [yeses_snoc, hff.2.2]; rfl
      | threw =>
        refine ⟨.free rfl hin (.inl ⟨hff.1, hff.2.1, ?_⟩), ext _ (fun hne => absurd rfl hne)⟩
        show yeses (s.ended ++ [(k, .threw)]) = 0
        rw [yeses_snoc, hff.2.2]; rfl

theorem once_inv {s : OnceState} (h : OnceRuns onceInit s) : OnceInv s := by
  generalize h0 : onceInit = s0 at h
  induction h with
  | refl => subst h0; exact ⟨.free rfl (fun _ => rfl) (.inl ⟨rfl, rfl, rfl⟩), by simp [onceInit]⟩
  | step _ hst ih => exact once_inv_step ih hst

/-- C137: under every schedule, the plugins are loaded at most once; a call that has returned, true or false, returned after the
    loading was complete; at most one call returns true. -/
theorem C137_once {s : OnceState} (h : OnceRuns onceInit s) :
    s.loads ≤ 1 ∧ yeses s.ended ≤ 1 ∧ (∀ e ∈ s.ended, e.2 ≠ .threw → s.loads = 1) := by
  have hi := once_inv h
  refine ⟨?_, ?_, hi.results⟩
  · cases hi.shape with
    | free _ _ hf => rcases hf with hf | hf <;> omega
    | held i _ _ hf => split at hf <;> first | exact absurd hf id | (rcases hf with hf | hf <;> omega) | omega
  · cases hi.shape with
    | free _ _ hf => rcases hf with hf | hf <;> omega
    | held i _ _ hf => split at hf <;> first | exact absurd hf id | (rcases hf with hf | hf <;> omega) | omega

/-- C137: when no call is under way and some call has returned, exactly one call returned true: the one that loaded the plugins. -/
theorem C137_exactly_one {s : OnceState} (h : OnceRuns onceInit s) (hq : ∀ i, s.pc i = .out) (he : ∃ e ∈ s.ended, e.2 ≠ .threw) :
    s.loads = 1 ∧ yeses s.ended = 1 := by
  have hi := once_inv h
  obtain ⟨e, he, hne⟩ := he
  have h1 := hi.results e he hne
  refine ⟨h1, ?_⟩
  cases hi.shape with
  | free _ _ hf =>
    rcases hf with hf | hf
    · omega
    · exact hf.2.2
  | held i _ _ hf => rw [hq i] at hf; exact absurd hf id

/-- C137: no deadlock. While some call is under way, a thread that is in a call can take a step. -/
theorem C137_progress {s : OnceState} (h : OnceRuns onceInit s) (hn : ∃ i, s.pc i ≠ .out) : ∃ t i, s.pc i ≠ .out ∧ OnceStep s t ∧ t.pc i ≠ s.pc i := by
  have hi := once_inv h
  have ne : ∀ (i : Nat) (a : OPC), a ≠ s.pc i → setAt s.pc i a i ≠ s.pc i := by intro i a h; rw [setAt_same]; exact h
  cases hi.shape with
  | free hl hp _ =>
    obtain ⟨i, hne⟩ := hn
    have hw : s.pc i = .waiting := by
      have := hp i
      cases hpc : s.pc i <;> rw [hpc] at this hne <;> first | rfl | exact absurd rfl hne | cases this
    exact ⟨_, i, hne, .lock s i hw hl, ne _ _ (by rw [hw]; decide)⟩
  | held i hl hp hf =>
    have hne : s.pc i ≠ .out := by intro e; rw [e] at hf; exact hf
    cases hpc : s.pc i with
    | out => exact absurd hpc hne
    | waiting => rw [hpc] at hf; exact absurd hf id
    | test =>
      cases hfi : s.first with
      | false => exact ⟨_, i, hne, .late s i hpc hfi, ne _ _ (by rw [hpc]; decide)⟩
      | true => exact ⟨_, i, hne, .begin s i hpc hfi, ne _ _ (by rw [hpc]; decide)⟩
    | loading => exact ⟨_, i, hne, .finish s i hpc, ne _ _ (by rw [hpc]; decide)⟩
    | store => exact ⟨_, i, hne, .store s i hpc, ne _ _ (by rw [hpc]; decide)⟩
    | leave r => exact ⟨_, i, hne, .unlock s i r hpc, ne _ _ (by rw [hpc]; simp)⟩

/-- Thread 0 loads while thread 1 waits; then both have returned. -/
example : ∃ s, OnceRuns onceInit s ∧ s.ended = [(0, .yes), (1, .no)] ∧ s.loads = 1 := by
  refine ⟨_, .step (.step (.step (.step (.step (.step (.step (.step (.step (.step (.refl _) (.slow _ 0 rfl rfl)) (.slow _ 1 rfl rfl)) (.lock _ 0 rfl rfl))
    (.begin _ 0 rfl rfl)) (.finish _ 0 rfl)) (.store _ 0 rfl)) (.unlock _ 0 .yes rfl)) (.lock _ 1 rfl rfl)) (.late _ 1 rfl rfl)) (.unlock _ 1 .no rfl), rfl, rfl⟩

end Vital.Plugin
