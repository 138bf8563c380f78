import Verif.Basic.Str
/-
  SystemTools::SetPermissions with honor_umask, called by several threads (vital/kwiversys/SystemTools.cxx:4824-4851); property C258.
  umask() belongs to the process, not to the thread.
-/
namespace Vital.Files.Mask
open Vital

/-- mode_t -/
abbrev Mode := BitVec 32

/-- The mode without the bits of a mask. -/
def without (m mask : Mode) : Mode := m &&& ~~~mask

/-- Where a thread is in SetPermissions: before `umask(0)`, between the two calls of umask (with currentMask), before chmod. -/
inductive Pc where
  | idle
  | first (f : Nat) (m : Mode)
  | second (f : Nat) (m : Mode) (old : Mode)
  | last (f : Nat) (m : Mode)
  deriving DecidableEq

/-- What has been done to files: chmod by SetPermissions, or the creation of a file by other code; the mode asked for and the mode it got. -/
inductive Done where
  | set (honor : Bool) (f : Nat) (asked got : Mode)
  | created (f : Nat) (asked got : Mode)
  deriving DecidableEq

/-- The process: its umask, the threads, the modes of the files that exist; the log of what was done is not part of the program. -/
structure St where
  mask : Mode
  pc : Nat → Pc
  /-- the mode and flag given to the call under way -/
  asked : Nat → Mode × Bool
  mode : Nat → Option Mode
  log : List Done

/-- The schedule: a thread calls SetPermissions, goes one step further, or creates a file. -/
inductive Act where
  | call (i f : Nat) (m : Mode) (honor : Bool)
  | go (i : Nat)
  | create (i f : Nat) (m : Mode)

def put {α : Type} (g : Nat → α) (i : Nat) (x : α) : Nat → α := fun j => if j = i then x else g j

-- models: vital/kwiversys/SystemTools.cxx:4824-4851 (SetPermissions): the test that the file is there, umask(0), umask(currentMask) and
-- mode &= ~currentMask, chmod; simplified: a file is there for ever, chmod does not fail.  create: open(O_CREAT) of other code in a thread that is
-- not in SetPermissions
def step (s : St) : Act → St
  | .call i f m honor =>
    if s.pc i = .idle then
      if (s.mode f).isSome then { s with pc := put s.pc i (if honor then .first f m else .last f m), asked := put s.asked i (m, honor) }
      else s
    else s
  | .go i => match s.pc i with
    | .idle => s
    | .first f m => { s with pc := put s.pc i (.second f m s.mask), mask := 0 }
    | .second f m old => { s with pc := put s.pc i (.last f (without m old)), mask := old }
    | .last f m => { s with pc := put s.pc i .idle, mode := put s.mode f (some m), log := s.log ++ [.set (s.asked i).2 f (s.asked i).1 m] }
  | .create i f m =>
    if s.pc i = .idle then { s with mode := put s.mode f (some (without m s.mask)), log := s.log ++ [.created f m (without m s.mask)] } else s

def run (s : St) (l : List Act) : St := l.foldl step s

def start (mask : Mode) (mode : Nat → Option Mode) : St := ⟨mask, fun _ => .idle, fun _ => (0, false), mode, []⟩

/-! ### Specification -/

/-- Nobody is in SetPermissions. -/
def Quiet (s : St) : Prop := ∀ i, s.pc i = .idle

/-- Every mode set with honor_umask and every file created honours the mask; a mode set without it is set as it is. -/
def Honest (mask : Mode) : Done → Prop
  | .set true _ a g => g = a &&& ~~~mask
  | .set false _ a g => g = a
  | .created _ a g => g = a &&& ~~~mask

/-- The full statement: whatever the threads do, the umask is the same after it, and it was honoured all the time. -/
def C258_statement : Prop := ∀ (mask : Mode) (mode : Nat → Option Mode) (l : List Act), Quiet (run (start mask mode) l) →
  (run (start mask mode) l).mask = mask ∧ ∀ d ∈ (run (start mask mode) l).log, Honest mask d

/-- A thread is between the two calls of umask. -/
def Inside (s : St) (i : Nat) : Prop := ∃ f m old, s.pc i = .second f m old

/-- A schedule in which nothing that uses the umask happens between the two calls of another thread. -/
def Apart : St → List Act → Prop
  | _, [] => True
  | s, a :: l => (match a with
      | .go i => (∃ f m, s.pc i = .first f m) → ∀ j, ¬ Inside s j
      | .create _ _ _ => ∀ j, ¬ Inside s j
      | .call _ _ _ _ => True) ∧ Apart (step s a) l

/-! ### Proofs -/

/-- **C258** (refuted): two threads that call SetPermissions at the same time can leave the process with an empty umask. -/
theorem C258_refuted : ¬ C258_statement := by
  intro h
  have hq : Quiet (run (start 18 (fun _ => some 420)) [.call 0 0 511 true, .call 1 1 511 true, .go 0, .go 1, .go 0, .go 1, .go 0, .go 1]) := by
    intro i
    by_cases h0 : i = 0
    · subst h0; decide +kernel
    · by_cases h1 : i = 1
      · subst h1; decide +kernel
      · simp [run, step, start, put, h0, h1]
  exact absurd (h _ _ _ hq).1 (by decide +kernel)

/-- **C258** (refuted also with one caller): a file that another thread creates meanwhile is open to everybody. -/
theorem C258_window : ∃ l : List Act, (∀ a ∈ l, (∀ i f m b, a = .call i f m b → i = 0) ∧ ∀ i f m, a = .create i f m → i = 1) ∧
    Quiet (run (start 18 (fun _ => some 420)) l) ∧ Done.created 1 438 438 ∈ (run (start 18 (fun _ => some 420)) l).log := by
  refine ⟨[.call 0 0 511 true, .go 0, .create 1 1 438, .go 0, .go 0], ?_, ?_, by decide +kernel⟩
  · intro a ha
    simp only [List.mem_cons, List.not_mem_nil, or_false] at ha
    rcases ha with rfl | rfl | rfl | rfl | rfl
    · exact ⟨(by intro i f m b e; cases e; rfl), (by intro i f m e; cases e)⟩
    · exact ⟨(by intro i f m b e; cases e), (by intro i f m e; cases e)⟩
    · exact ⟨(by intro i f m b e; cases e), (by intro i f m e; cases e; rfl)⟩
    · exact ⟨(by intro i f m b e; cases e), (by intro i f m e; cases e)⟩
    · exact ⟨(by intro i f m b e; cases e), (by intro i f m e; cases e)⟩
  · intro i
    by_cases h0 : i = 0
    · subst h0; decide +kernel
    · simp [run, step, start, put, h0]

theorem without_zero (m : Mode) : without m 0 = m := by
  show m &&& ~~~(0#32) = m
  rw [show ~~~(0#32) = BitVec.allOnes 32 from by decide, BitVec.and_allOnes]

/-- What is known of a thread. -/
def PcOk (mask : Mode) (asked : Mode × Bool) : Pc → Prop
  | .idle => True
  | .first _ m => m = asked.1 ∧ asked.2 = true
  | .second _ m old => m = asked.1 ∧ asked.2 = true ∧ old = mask
  | .last _ m => if asked.2 then m = asked.1 &&& ~~~mask else m = asked.1

structure Inv (mask : Mode) (s : St) : Prop where
  pcs : ∀ i, PcOk mask (s.asked i) (s.pc i)
  one : ∀ i j, Inside s i → Inside s j → i = j
  out : (∀ i, ¬ Inside s i) → s.mask = mask
  log : ∀ d ∈ s.log, Honest mask d

theorem inv_start (mask : Mode) (mode : Nat → Option Mode) : Inv mask (start mask mode) :=
  ⟨fun _ => trivial, fun i j ⟨_, _, _, h⟩ => absurd h (by simp [start]), fun _ => rfl, fun d hd => by simp [start] at hd⟩

theorem inside_put {s : St} {i : Nat} {p : Pc} {asked : Nat → Mode × Bool} {mask : Mode} {mode : Nat → Option Mode} {log : List Done} (j : Nat) :
    Inside ⟨mask, put s.pc i p, asked, mode, log⟩ j ↔ (if j = i then ∃ f m old, p = .second f m old else Inside s j) := by
  unfold Inside put
  by_cases h : j = i
  · simp [h]
  · simp [h]

theorem inv_step {mask : Mode} {s : St} (h : Inv mask s) {a : Act} {l : List Act} (ha : Apart s (a :: l)) : Inv mask (step s a) := by
  cases a with
  | call i f m honor =>
    simp only [step]
    by_cases hi : s.pc i = .idle
    · by_cases hf : (s.mode f).isSome
      · simp only [hi, hf, if_true]
        have hno : ¬ Inside s i := fun ⟨_, _, _, e⟩ => by rw [hi] at e; cases e
        have hnp : ¬ ∃ f' m' old, (if honor = true then Pc.first f m else Pc.last f m) = Pc.second f' m' old := by
          rintro ⟨_, _, _, e⟩
          cases honor <;> cases e
        refine ⟨fun j => ?_, fun j k hj hk => ?_, fun ho => ?_, h.log⟩
        · by_cases hji : j = i
          · subst hji
            simp only [put, if_true]
            cases honor
            · simp [PcOk]
            · simp [PcOk]
          · simp only [put, hji, if_false]
            exact h.pcs j
        · rw [inside_put] at hj hk
          by_cases h1 : j = i
          · rw [if_pos h1] at hj; exact absurd hj hnp
          · by_cases h2 : k = i
            · rw [if_pos h2] at hk; exact absurd hk hnp
            · rw [if_neg h1] at hj
              rw [if_neg h2] at hk
              exact h.one j k hj hk
        · refine h.out (fun j hj => ?_)
          by_cases h1 : j = i
          · subst h1; exact hno hj
          · exact ho j ((inside_put j).mpr (by rw [if_neg h1]; exact hj))
      · simp only [hi, hf, if_true]
        exact h
    · simp only [hi, if_false]
      exact h
  | go i =>
    simp only [step]
    have hpc := h.pcs i
    cases hp : s.pc i with
    | idle => exact h
    | first f m =>
      rw [hp] at hpc
      have hno := ha.1 ⟨f, m, hp⟩
      have hm : s.mask = mask := h.out hno
      refine ⟨fun j => ?_, fun j k hj hk => ?_, fun ho => ?_, h.log⟩
      · by_cases hji : j = i
        · subst hji
          simp only [put, if_true]
          exact ⟨hpc.1, hpc.2, hm⟩
        · simp only [put, hji, if_false]
          exact h.pcs j
      · rw [inside_put] at hj hk
        by_cases h1 : j = i
        · by_cases h2 : k = i
          · rw [h1, h2]
          · rw [if_neg h2] at hk; exact absurd hk (hno k)
        · rw [if_neg h1] at hj; exact absurd hj (hno j)
      · exact absurd ((inside_put i).mpr (by rw [if_pos rfl]; exact ⟨_, _, _, rfl⟩)) (ho i)
    | second f m old =>
      rw [hp] at hpc
      obtain ⟨h1, h2, h3⟩ := hpc
      have hin : Inside s i := ⟨_, _, _, hp⟩
      have hrest : ∀ j, ¬ Inside ⟨old, put s.pc i (.last f (without m old)), s.asked, s.mode, s.log⟩ j := by
        intro j hj
        rw [inside_put] at hj
        by_cases hji : j = i
        · rw [if_pos hji] at hj
          obtain ⟨_, _, _, e⟩ := hj
          cases e
        · rw [if_neg hji] at hj
          exact hji (h.one j i hj hin)
      refine ⟨fun j => ?_, fun j k hj _ => absurd hj (hrest j), fun _ => h3, h.log⟩
      by_cases hji : j = i
      · subst hji
        simp only [put, if_true, PcOk, h2]
        rw [h1, h3]
        rfl
      · simp only [put, hji, if_false]
        exact h.pcs j
    | last f m =>
      rw [hp] at hpc
      have hnp : ¬ ∃ f' m' old, Pc.idle = Pc.second f' m' old := by rintro ⟨_, _, _, e⟩; cases e
      have hno : ¬ Inside s i := fun ⟨_, _, _, e⟩ => by rw [hp] at e; cases e
      refine ⟨fun j => ?_, fun j k hj hk => ?_, fun ho => ?_, fun d hd => ?_⟩
      · by_cases hji : j = i
        · subst hji
          simp only [put, if_true]
          trivial
        · simp only [put, hji, if_false]
          exact h.pcs j
      · rw [inside_put] at hj hk
        by_cases h1 : j = i
        · rw [if_pos h1] at hj; exact absurd hj hnp
        · by_cases h2 : k = i
          · rw [if_pos h2] at hk; exact absurd hk hnp
          · rw [if_neg h1] at hj
            rw [if_neg h2] at hk
            exact h.one j k hj hk
      · refine h.out (fun j hj => ?_)
        by_cases h1 : j = i
        · subst h1; exact hno hj
        · exact ho j ((inside_put j).mpr (by rw [if_neg h1]; exact hj))
      · simp only [List.mem_append, List.mem_singleton] at hd
        rcases hd with hd | rfl
        · exact h.log d hd
        · simp only [PcOk] at hpc
          cases hb : (s.asked i).2
          · rw [hb] at hpc
            simpa [Honest] using hpc
          · rw [hb] at hpc
            simpa [Honest] using hpc
  | create i f m =>
    simp only [step]
    by_cases hi : s.pc i = .idle
    · simp only [hi, if_true]
      have hm : s.mask = mask := h.out ha.1
      refine ⟨h.pcs, h.one, h.out, fun d hd => ?_⟩
      simp only [List.mem_append, List.mem_singleton] at hd
      rcases hd with hd | rfl
      · exact h.log d hd
      · simp only [Honest]
        rw [hm]
        rfl
    · simp only [hi, if_false]
      exact h

theorem inv_run {mask : Mode} (l : List Act) : ∀ {s : St}, Inv mask s → Apart s l → Inv mask (run s l) := by
  induction l with
  | nil => intro s h _; exact h
  | cons a l ih => intro s h ha; exact ih (inv_step h ha) ha.2

/-- **C258** (what holds): when nothing that uses the umask happens between the two calls of umask of another thread, the umask is the same
afterwards and is honoured by all modes that are set and all files that are created. -/
theorem C258_apart_partial (mask : Mode) (mode : Nat → Option Mode) (l : List Act) (ha : Apart (start mask mode) l) :
    (Quiet (run (start mask mode) l) → (run (start mask mode) l).mask = mask) ∧ ∀ d ∈ (run (start mask mode) l).log, Honest mask d := by
  have h := inv_run l (inv_start mask mode) ha
  exact ⟨fun hq => h.out (fun i ⟨_, _, _, e⟩ => by rw [hq i] at e; cases e), h.log⟩

/-- What can happen at worst to a file. -/
def AtWorst (mask : Mode) : Done → Prop
  | .set true _ a g => g = a ∨ g = a &&& ~~~mask
  | .set false _ a g => g = a
  | .created _ a g => g = a ∨ g = a &&& ~~~mask

def PcWeak (mask : Mode) (asked : Mode × Bool) : Pc → Prop
  | .idle => True
  | .first _ m => m = asked.1 ∧ asked.2 = true
  | .second _ m old => m = asked.1 ∧ asked.2 = true ∧ (old = mask ∨ old = 0)
  | .last _ m => m = asked.1 ∨ (m = asked.1 &&& ~~~mask ∧ asked.2 = true)

def Weak (mask : Mode) (s : St) : Prop := (s.mask = mask ∨ s.mask = 0) ∧ (∀ i, PcWeak mask (s.asked i) (s.pc i)) ∧ ∀ d ∈ s.log, AtWorst mask d

theorem weak_step {mask : Mode} {s : St} (h : Weak mask s) (a : Act) : Weak mask (step s a) := by
  obtain ⟨hm, hp, hl⟩ := h
  cases a with
  | call i f m honor =>
    simp only [step]
    by_cases hi : s.pc i = .idle
    · by_cases hf : (s.mode f).isSome
      · simp only [hi, hf, if_true]
        refine ⟨hm, fun j => ?_, hl⟩
        by_cases hji : j = i
        · subst hji
          simp only [put, if_true]
          cases honor
          · simp [PcWeak]
          · simp [PcWeak]
        · simp only [put, hji, if_false]
          exact hp j
      · simp only [hi, hf, if_true]
        exact ⟨hm, hp, hl⟩
    · simp only [hi, if_false]
      exact ⟨hm, hp, hl⟩
  | go i =>
    simp only [step]
    have hpc := hp i
    cases hc : s.pc i with
    | idle => exact ⟨hm, hp, hl⟩
    | first f m =>
      rw [hc] at hpc
      refine ⟨Or.inr rfl, fun j => ?_, hl⟩
      by_cases hji : j = i
      · subst hji
        simp only [put, if_true]
        exact ⟨hpc.1, hpc.2, hm⟩
      · simp only [put, hji, if_false]
        exact hp j
    | second f m old =>
      rw [hc] at hpc
      obtain ⟨h1, h2, h3⟩ := hpc
      refine ⟨h3, fun j => ?_, hl⟩
      by_cases hji : j = i
      · subst hji
        simp only [put, if_true, PcWeak]
        rcases h3 with h3 | h3
        · exact Or.inr ⟨by rw [h1, h3]; rfl, h2⟩
        · exact Or.inl (by rw [h3, without_zero, h1])
      · simp only [put, hji, if_false]
        exact hp j
    | last f m =>
      rw [hc] at hpc
      refine ⟨hm, fun j => ?_, fun d hd => ?_⟩
      · by_cases hji : j = i
        · subst hji
          simp only [put, if_true]
          trivial
        · simp only [put, hji, if_false]
          exact hp j
      · simp only [List.mem_append, List.mem_singleton] at hd
        rcases hd with hd | rfl
        · exact hl d hd
        · simp only [PcWeak] at hpc
          cases hb : (s.asked i).2
          · rw [hb] at hpc
            simpa [AtWorst] using hpc
          · rw [hb] at hpc
            simpa [AtWorst] using hpc
  | create i f m =>
    simp only [step]
    by_cases hi : s.pc i = .idle
    · simp only [hi, if_true]
      refine ⟨hm, hp, fun d hd => ?_⟩
      simp only [List.mem_append, List.mem_singleton] at hd
      rcases hd with hd | rfl
      · exact hl d hd
      · simp only [AtWorst]
        rcases hm with hm | hm
        · exact Or.inr (by rw [hm]; rfl)
        · exact Or.inl (by rw [hm, without_zero])
    · simp only [hi, if_false]
      exact ⟨hm, hp, hl⟩

/-- **C258** (at worst): in every schedule the umask is the one of the beginning or empty, a mode set with honor_umask is the mode asked for with or
without the mask applied, a mode set without it is the mode asked for. -/
theorem C258_at_worst (mask : Mode) (mode : Nat → Option Mode) (l : List Act) :
    ((run (start mask mode) l).mask = mask ∨ (run (start mask mode) l).mask = 0) ∧ ∀ d ∈ (run (start mask mode) l).log, AtWorst mask d := by
  have h : ∀ (l : List Act) (s : St), Weak mask s → Weak mask (run s l) := by
    intro l
    induction l with
    | nil => intro s h; exact h
    | cons a l ih => intro s h; exact ih _ (weak_step h a)
  have h' := h l (start mask mode) ⟨Or.inl rfl, fun _ => trivial, fun d hd => by simp [start] at hd⟩
  exact ⟨h'.1, h'.2.2⟩

/-- Two threads one after the other, and a file created in between: apart. -/
example : Apart (start 18 (fun _ => some 420)) [.call 0 0 511 true, .call 1 1 511 true, .go 0, .go 0, .create 2 5 438, .go 1, .go 1, .go 0, .go 1] ∧
    (run (start 18 (fun _ => some 420)) [.call 0 0 511 true, .call 1 1 511 true, .go 0, .go 0, .create 2 5 438, .go 1, .go 1, .go 0, .go 1]).log =
      [.created 5 438 420, .set true 0 511 493, .set true 1 511 493] := by
  refine ⟨?_, by decide +kernel⟩
  have hn : ∀ s : St, (∀ j, ∀ f m old, s.pc j ≠ .second f m old) → ∀ j, ¬ Inside s j := fun s h j ⟨f, m, old, e⟩ => h j f m old e
  simp only [Apart, and_true, true_and]
  refine ⟨fun _ => hn _ ?_, fun ⟨_, _, e⟩ => absurd e (by simp [step, start, put]), hn _ ?_, fun _ => hn _ ?_,
    fun ⟨_, _, e⟩ => absurd e (by simp [step, start, put]), fun ⟨_, _, e⟩ => absurd e (by simp [step, start, put]),
    fun ⟨_, _, e⟩ => absurd e (by simp [step, start, put])⟩ <;>
  · intro j f m old
    by_cases h0 : j = 0
    · subst h0; simp [step, start, put]
    · by_cases h1 : j = 1
      · subst h1; simp [step, start, put]
      · simp [step, start, put, h0, h1]

end Vital.Files.Mask
