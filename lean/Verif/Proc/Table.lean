import Verif.Basic.Str
/-
  Model of the global table of executing processes and of the signal dispositions that go with it:
  vital/kwiversys/ProcessUNIX.c:2715-2963 (kwsysProcessesUpdate, kwsysProcessesAdd, kwsysProcessesRemove); property C195.

  A process object is a number.  The pipe that `kwsysProcessesAdd` creates is not part of this model (see Verif/Proc/Wait.lean);
  a failure of it leaves the table alone.  `sigaction` does not fail; interrupted calls are repeated.  `none` is undefined behaviour:
  a store outside the array.  Overflow of the `int` capacity is not modelled.
-/
namespace Vital.Proc.Table

/-! ### The code -/

/-- What a signal does: the default (also the all-zero `struct sigaction`), something of the application, or the handler of this library. -/
inductive Disp where
  | dflt
  | app (n : Nat)
  | handler
  deriving DecidableEq, Repr

structure Disps where
  chld : Disp
  int : Disp
  term : Disp
  deriving DecidableEq, Repr

-- models: vital/kwiversys/ProcessUNIX.c:2717-2728 (kwsysProcesses and the three saved actions, zero-initialised); `Count` is the length of `procs`
structure T where
  size : Nat
  procs : List Nat
  cur : Disps
  old : Disps
  deriving DecidableEq, Repr

def init (d : Disps) : T := ⟨0, [], d, ⟨.dflt, .dflt, .dflt⟩⟩

/-- `mem`: the answer of `malloc` if it is called. -/
-- models: vital/kwiversys/ProcessUNIX.c:2788-2881 (kwsysProcessesAdd, second part); lines 2876-2878 save the SIGTERM action in the variable for SIGINT
def add (t : T) (mem : Bool) (cp : Nat) : Option (Bool × T) :=
  if t.procs.length = t.size ∧ mem = false then some (false, t)
  else
    let size := if t.procs.length = t.size then (if t.size ≠ 0 then t.size * 2 else 4) else t.size
    -- memcpy of the old pointers and the store of the new one
    if t.procs.length < size then
      let t1 : T := { t with size := size, procs := t.procs ++ [cp] }
      if t1.procs.length = 1 then
        let t2 := { t1 with old := { t1.old with chld := t1.cur.chld }, cur := { t1.cur with chld := .handler } }
        let t3 := { t2 with old := { t2.old with int := t2.cur.int }, cur := { t2.cur with int := .handler } }
        let t4 := { t3 with old := { t3.old with int := t3.cur.term }, cur := { t3.cur with term := .handler } }
        some (true, t4)
      else some (true, t1)
    else none

/-- Move the pointers behind position `i` forward. -/
-- models: vital/kwiversys/ProcessUNIX.c:2894-2900 and 2904-2907 (the search and the shift)
def shift (cp : Nat) : List Nat → List Nat
  | [] => []
  | x :: l => if x = cp then l else x :: shift cp l

-- models: vital/kwiversys/ProcessUNIX.c:2889-2933 (kwsysProcessesRemove)
def remove (t : T) (cp : Nat) : T :=
  if cp ∈ t.procs then
    let t1 := { t with procs := shift cp t.procs }
    if t1.procs.length = 0 then { t1 with cur := t1.old, size := 0 } else t1
  else t

inductive Sig where | chld | int | term

inductive Event where
  /-- an object starts executing -/
  | add (mem : Bool) (cp : Nat)
  /-- an object is cleaned up -/
  | remove (cp : Nat)
  /-- the application sets a disposition itself -/
  | app (s : Sig) (d : Disp)

def Disps.set (x : Disps) (s : Sig) (d : Disp) : Disps :=
  match s with
  | .chld => { x with chld := d } | .int => { x with int := d } | .term => { x with term := d }

def step (t : T) : Event → Option T
  | .add mem cp => (add t mem cp).map Prod.snd
  | .remove cp => some (remove t cp)
  | .app s d => some { t with cur := t.cur.set s d }

def run : T → List Event → Option T
  | t, [] => some t
  | t, e :: l => (step t e).bind fun t => run t l

/-! ### Specification -/

/-- The objects that wait to be notified, oldest first. `full` says whether the table had to grow and could not. -/
def waiting (l : List Nat) (accepted : Bool) : Event → List Nat
  | .add _ cp => if accepted then l ++ [cp] else l
  | .remove cp => l.erase cp
  | .app _ _ => l

/-- What the application has asked for. -/
def wanted (x : Disps) : List Event → Disps
  | [] => x
  | .app s d :: l => wanted (x.set s d) l
  | _ :: l => wanted x l

/-- The application leaves the signals alone while something executes. -/
inductive Polite : T → List Event → Prop
  | nil (t : T) : Polite t []
  | add {t t' : T} {m : Bool} {cp : Nat} {l : List Event} : step t (.add m cp) = some t' → Polite t' l → Polite t (.add m cp :: l)
  | remove {t : T} {cp : Nat} {l : List Event} : Polite (remove t cp) l → Polite t (.remove cp :: l)
  | app {t : T} {s : Sig} {d : Disp} {l : List Event} : t.procs = [] → Polite { t with cur := t.cur.set s d } l → Polite t (.app s d :: l)

/-! ### Proofs -/

theorem shift_eq (cp : Nat) (l : List Nat) : shift cp l = l.erase cp := by
  induction l with
  | nil => rfl
  | cons x l ih =>
    unfold shift
    by_cases h : x = cp
    · subst h; simp
    · have : (x == cp) = false := by simpa using h
      rw [List.erase_cons_tail (by simpa using h), if_neg h, ih]

theorem add_spec (t : T) (hc : t.procs.length ≤ t.size) (mem : Bool) (cp : Nat) :
    ∃ b t', add t mem cp = some (b, t') ∧ t'.procs.length ≤ t'.size ∧ t'.procs = (if b then t.procs ++ [cp] else t.procs) ∧
      (b = true ↔ (t.procs.length < t.size ∨ mem = true)) ∧
      (b = false → t' = t) ∧
      (b = true → t.procs = [] → t'.cur = ⟨.handler, .handler, .handler⟩ ∧ t'.old = ⟨t.cur.chld, t.cur.term, t.old.term⟩) ∧
      (b = true → t.procs ≠ [] → t'.cur = t.cur ∧ t'.old = t.old) := by
  unfold add
  by_cases h : t.procs.length = t.size ∧ mem = false
  · rw [if_pos h]
    refine ⟨false, t, rfl, hc, rfl, ?_, fun _ => rfl, fun e => (by cases e), fun e => (by cases e)⟩
    constructor
    · intro e; cases e
    · rintro (h' | h')
      · omega
      · rw [h.2] at h'; cases h'
  · rw [if_neg h]
    have hb : t.procs.length < t.size ∨ mem = true := by
      by_cases h1 : t.procs.length = t.size
      · right; cases mem
        · exact absurd ⟨h1, rfl⟩ h
        · rfl
      · left; omega
    have hs : t.procs.length < (if t.procs.length = t.size then (if t.size ≠ 0 then t.size * 2 else 4) else t.size) := by
      split
      · split <;> omega
      · omega
    simp only [hs, ↓reduceIte]
    by_cases h1 : (t.procs ++ [cp]).length = 1
    · simp only [h1, ↓reduceIte]
      have h0 : t.procs = [] := by simpa using h1
      refine ⟨true, _, rfl, ?_, by simp, by simp [hb], fun e => (by cases e), fun _ _ => ⟨rfl, rfl⟩, fun _ hne => absurd h0 hne⟩
      simp only [List.length_append, List.length_singleton]; omega
    · simp only [h1, ↓reduceIte]
      have h0 : t.procs ≠ [] := by intro e; rw [e] at h1; simp at h1
      refine ⟨true, _, rfl, ?_, by simp, by simp [hb], fun e => (by cases e), fun _ he => absurd he h0, fun _ _ => ⟨rfl, rfl⟩⟩
      simp only [List.length_append, List.length_singleton]; omega

theorem remove_spec (t : T) (hc : t.procs.length ≤ t.size) (cp : Nat) :
    (remove t cp).procs = t.procs.erase cp ∧ (remove t cp).procs.length ≤ (remove t cp).size ∧ (remove t cp).old = t.old ∧
    (t.procs ≠ [] → t.procs.erase cp = [] → (remove t cp).cur = t.old) ∧
    (t.procs.erase cp ≠ [] → (remove t cp).cur = t.cur) ∧ (t.procs = [] → remove t cp = t) := by
  unfold remove
  by_cases h : cp ∈ t.procs
  · simp only [h, ↓reduceIte, shift_eq]
    have hl : (t.procs.erase cp).length ≤ t.procs.length := List.length_erase_le
    by_cases h0 : (t.procs.erase cp).length = 0
    · simp only [h0, ↓reduceIte]
      have he := List.length_eq_zero_iff.1 h0
      refine ⟨trivial, ?_, trivial, fun _ _ => trivial, fun hne => absurd he hne, fun e => ?_⟩
      · simp
      · rw [e] at h; cases h
    · simp only [h0, ↓reduceIte]
      refine ⟨trivial, by omega, trivial, fun _ he => ?_, fun _ => trivial, fun e => ?_⟩
      · rw [he] at h0; simp at h0
      · rw [e] at h; cases h
  · simp only [h, ↓reduceIte]
    have he := List.erase_of_not_mem h
    refine ⟨he.symm, hc, trivial, fun hne h0 => ?_, fun _ => trivial, fun _ => trivial⟩
    rw [he] at h0
    exact absurd h0 hne

theorem step_spec (t : T) (hc : t.procs.length ≤ t.size) (e : Event) : ∃ t', step t e = some t' ∧ t'.procs.length ≤ t'.size ∧
    ∃ b, t'.procs = waiting t.procs b e ∧ (∀ cp, e = .add true cp → b = true) := by
  cases e with
  | add mem cp =>
    obtain ⟨b, t', h1, h2, h3, h4, _⟩ := add_spec t hc mem cp
    exact ⟨t', by simp [step, h1], h2, b, h3, fun cp' he => by cases he; exact h4.2 (.inr rfl)⟩
  | remove cp =>
    obtain ⟨h1, h2, _⟩ := remove_spec t hc cp
    exact ⟨_, rfl, h2, true, h1, fun cp' he => by cases he⟩
  | app s d => exact ⟨_, rfl, hc, true, rfl, fun cp' he => by cases he⟩

/-- The lists that a history can lead to: an `add` may fail only when it has to allocate and cannot. -/
inductive Listed : List Nat → List Event → List Nat → Prop
  | nil (l : List Nat) : Listed l [] l
  | cons {l l' : List Nat} {e : Event} {es : List Event} (b : Bool) : (∀ cp, e = .add true cp → b = true) →
      Listed (waiting l b e) es l' → Listed l (e :: es) l'

/-- **C195.** For every history of objects that start and finish, the table holds exactly the objects that have started and not finished (oldest first),
    never overruns its array, and an object is refused only when memory is exhausted. -/
theorem C195_table (d : Disps) (l : List Event) : ∃ t, run (init d) l = some t ∧ t.procs.length ≤ t.size ∧ Listed [] l t.procs := by
  have h : ∀ (l : List Event) (t : T), t.procs.length ≤ t.size → ∃ t', run t l = some t' ∧ t'.procs.length ≤ t'.size ∧ Listed t.procs l t'.procs := by
    intro l
    induction l with
    | nil => intro t hc; exact ⟨t, rfl, hc, .nil _⟩
    | cons e l ih =>
      intro t hc
      obtain ⟨t1, h1, h2, b, h3, h4⟩ := step_spec t hc e
      obtain ⟨t2, k1, k2, k3⟩ := ih t1 h2
      exact ⟨t2, by simp [run, h1, k1], k2, .cons b h4 (by rw [← h3]; exact k3)⟩
  exact h l (init d) (Nat.le_refl 0)

/-- With memory, the table is simply the list of the executing objects. -/
theorem C195_members (d : Disps) (l : List Event) (hm : ∀ cp, Event.add false cp ∉ l) (t : T) (h : run (init d) l = some t) :
    t.procs = l.foldl (fun s e => waiting s true e) [] := by
  obtain ⟨t', h1, _, h3⟩ := C195_table d l
  rw [h] at h1
  cases h1
  clear h
  generalize ([] : List Nat) = s at h3 ⊢
  induction l generalizing s with
  | nil => cases h3; rfl
  | cons e l ih =>
    cases h3 with
    | cons b hb hl =>
      rw [List.foldl_cons]
      have hbe : waiting s b e = waiting s true e := by
        cases e with
        | add m cp =>
          cases m with
          | false => exact absurd (List.mem_cons_self ..) (hm cp)
          | true => rw [hb cp rfl]
        | remove cp => rfl
        | app s d => rfl
      rw [← hbe]
      exact ih (fun cp hc => hm cp (List.mem_cons_of_mem _ hc)) _ hl

/-- Invariant of polite histories. -/
structure Inv (t : T) (w : Disps) : Prop where
  cap : t.procs.length ≤ t.size
  empty : t.procs = [] → t.cur.chld = w.chld
  busy : t.procs ≠ [] → t.cur = ⟨.handler, .handler, .handler⟩ ∧ t.old.chld = w.chld

theorem inv_run (l : List Event) : ∀ (t : T) (w : Disps), Inv t w → Polite t l → ∀ t', run t l = some t' → Inv t' (wanted w l) := by
  induction l with
  | nil => intro t w h _ t' e; cases e; exact h
  | cons e l ih =>
    intro t w h hp t' he
    cases hp with
    | @add t0 t1 m cp l0 hs hp =>
      simp only [run, hs, Option.bind_some] at he
      refine ih t1 w ?_ hp t' he
      obtain ⟨b, t2, h1, h2, h3, h4, h5, h6, h7⟩ := add_spec t h.cap m cp
      have : t1 = t2 := by simpa [step, h1] using hs.symm
      subst this
      cases b with
      | false => rw [h5 rfl]; exact h
      | true =>
        have hne : t1.procs ≠ [] := by rw [h3]; simp
        refine ⟨h2, fun e => absurd e hne, fun _ => ?_⟩
        by_cases h0 : t.procs = []
        · obtain ⟨k1, k2⟩ := h6 rfl h0
          exact ⟨k1, by rw [k2]; exact h.empty h0⟩
        · obtain ⟨k1, k2⟩ := h7 rfl h0
          rw [k1, k2]
          exact h.busy h0
    | @remove t0 cp l0 hp =>
      simp only [run, step, Option.bind_some] at he
      refine ih _ w ?_ hp t' he
      obtain ⟨h1, h2, h3, h4, h5, h6⟩ := remove_spec t h.cap cp
      by_cases h0 : t.procs = []
      · rw [h6 h0]; exact h
      · refine ⟨h2, fun e => ?_, fun e => ?_⟩
        · rw [h1] at e
          rw [h4 h0 e]
          exact (h.busy h0).2
        · rw [h1] at e
          rw [h5 e, h3]
          exact h.busy h0
    | @app t0 s d l0 h0 hp =>
      simp only [run, step, Option.bind_some] at he
      refine ih _ (w.set s d) ?_ hp t' he
      refine ⟨h.cap, fun _ => ?_, fun e => absurd h0 e⟩
      have := h.empty h0
      cases s
      · rfl
      · exact this
      · exact this

/-- The full claim of C195: whenever nothing executes, the dispositions of SIGCHLD, SIGINT and SIGTERM are the application's own. -/
def Restored : Prop :=
  ∀ (d : Disps) (l : List Event), Polite (init d) l → ∀ t, run (init d) l = some t → t.procs = [] → t.cur = wanted d l

/-- **C195, refuted.** An application with its own handlers for SIGINT and SIGTERM runs one command: afterwards SIGINT runs its SIGTERM handler, and SIGTERM
    has the default action. -/
theorem C195_refuted : ¬ Restored := by
  intro h
  have hp : Polite (init ⟨.dflt, .app 1, .app 2⟩) [.add true 7, .remove 7] := .add rfl (.remove (.nil _))
  have := h ⟨.dflt, .app 1, .app 2⟩ [.add true 7, .remove 7] hp _ rfl rfl
  revert this
  decide

/-- What it leaves instead, for all handlers. -/
theorem C195_refuted_what (c i t : Disp) (cp : Nat) :
    (run (init ⟨c, i, t⟩) [.add true cp, .remove cp]).map T.cur = some ⟨c, t, .dflt⟩ := by
  simp [run, step, add, remove, init, shift]

/-- **C195, partial.** SIGCHLD: while something executes the handler is installed for all three signals, and whenever nothing executes
    SIGCHLD has the disposition the application gave it. -/
theorem C195_sigchld_partial (d : Disps) (l : List Event) (hp : Polite (init d) l) (t : T) (h : run (init d) l = some t) :
    (t.procs ≠ [] → t.cur = ⟨.handler, .handler, .handler⟩) ∧ (t.procs = [] → t.cur.chld = (wanted d l).chld) := by
  have hi := inv_run l (init d) d ⟨Nat.le_refl 0, fun _ => rfl, fun h => absurd rfl h⟩ hp t h
  exact ⟨fun hb => (hi.busy hb).1, hi.empty⟩

/-- Invariant for an application that has default SIGINT and SIGTERM. -/
theorem default_run (l : List Event) : ∀ (t : T), t.procs.length ≤ t.size → (t.old.int = .dflt ∧ t.old.term = .dflt) →
    (t.procs = [] → t.cur.int = .dflt ∧ t.cur.term = .dflt) → (∀ s d, Event.app s d ∈ l → s = .chld) →
    ∀ t', run t l = some t' → t'.procs = [] → t'.cur.int = .dflt ∧ t'.cur.term = .dflt := by
  induction l with
  | nil => intro t _ _ h _ t' e; cases e; exact h
  | cons e l ih =>
    intro t hc ho hd ha t' he
    have ha' : ∀ s d, Event.app s d ∈ l → s = .chld := fun s d hm => ha s d (List.mem_cons_of_mem _ hm)
    cases e with
    | add m cp =>
      obtain ⟨b, t2, h1, h2, h3, h4, h5, h6, h7⟩ := add_spec t hc m cp
      simp only [run, step, h1, Option.map_some, Option.bind_some] at he
      cases b with
      | false => rw [h5 rfl] at he; exact ih t hc ho hd ha' t' he
      | true =>
        refine ih t2 h2 ?_ (fun e => ?_) ha' t' he
        · by_cases h0 : t.procs = []
          · rw [(h6 rfl h0).2]; exact ⟨(hd h0).2, ho.2⟩
          · rw [(h7 rfl h0).2]; exact ho
        · rw [h3] at e; simp at e
    | remove cp =>
      simp only [run, step, Option.bind_some] at he
      obtain ⟨h1, h2, h3, h4, h5, h6⟩ := remove_spec t hc cp
      by_cases h0 : t.procs = []
      · rw [h6 h0] at he; exact ih t hc ho hd ha' t' he
      · refine ih _ h2 (by rw [h3]; exact ho) (fun e => ?_) ha' t' he
        rw [h1] at e
        rw [h4 h0 e]
        exact ho
    | app s d =>
      simp only [run, step, Option.bind_some] at he
      have := ha s d (List.mem_cons_self ..)
      subst this
      exact ih { t with cur := t.cur.set .chld d } hc ho hd ha' t' he

/-- **C195, partial.** An application that has left SIGINT and SIGTERM at their defaults gets all three dispositions back. -/
theorem C195_defaults_partial (c : Disp) (l : List Event) (ha : ∀ s d, Event.app s d ∈ l → s = .chld) (hp : Polite (init ⟨c, .dflt, .dflt⟩) l) (t : T)
    (h : run (init ⟨c, .dflt, .dflt⟩) l = some t) (h0 : t.procs = []) : t.cur = wanted ⟨c, .dflt, .dflt⟩ l := by
  have h1 := (C195_sigchld_partial _ l hp t h).2 h0
  have h2 := default_run l (init ⟨c, .dflt, .dflt⟩) (Nat.le_refl 0) ⟨rfl, rfl⟩ (fun _ => ⟨rfl, rfl⟩) ha t h h0
  have hw : ∀ (l : List Event) (x : Disps), (∀ s d, Event.app s d ∈ l → s = .chld) → (wanted x l).int = x.int ∧ (wanted x l).term = x.term := by
    intro l
    induction l with
    | nil => intro x _; exact ⟨rfl, rfl⟩
    | cons e l ih =>
      intro x ha
      have ha' : ∀ s d, Event.app s d ∈ l → s = .chld := fun s d hm => ha s d (List.mem_cons_of_mem _ hm)
      cases e with
      | add m cp => exact ih x ha'
      | remove cp => exact ih x ha'
      | app s d =>
        have := ha s d (List.mem_cons_self ..)
        subst this
        exact ih _ ha'
  obtain ⟨k1, k2⟩ := hw l ⟨c, .dflt, .dflt⟩ ha
  cases hc : t.cur with
  | mk a b c' =>
    rw [hc] at h1 h2
    cases hk : wanted ⟨c, .dflt, .dflt⟩ l with
    | mk a' b' c'' =>
      rw [hk] at h1 k1 k2
      simp only at h1 h2 k1 k2
      rw [h1, h2.1, h2.2, k1, k2]

/-- non-vacuity: six objects at a time (the table grows), all finished in another order -/
example : (run (init ⟨.app 3, .dflt, .dflt⟩) ([1, 2, 3, 4, 5, 6].map (Event.add true) ++ [3, 1, 6, 2, 5].map Event.remove)).map (fun t => (t.procs, t.size, t.cur.chld)) = some ([4], 8, .handler) := by decide
example : Polite (init ⟨.app 3, .dflt, .dflt⟩) [.app .chld (.app 4), .add true 1, .add false 2, .remove 1, .remove 2] :=
  .app rfl (.add rfl (.add rfl (.remove (.remove (.nil _)))))

end Vital.Proc.Table
