import Verif.Basic.Str
/-
  SystemToolsManager (vital/kwiversys/SystemTools.hxx.in:57-71, SystemTools.cxx:5285-5314, 5395-5405): the table of translations exists while a
  translation unit that includes the header is loaded; property C264.
-/
namespace Vital.Sys.Mgr
open Vital

/-- The table of translations, as a list of pairs. -/
abbrev Table := List (Str × Str)

/-- The pointer TranslationMap: null, to a table, or to one that was deleted. -/
inductive Ptr where
  | null
  | table (t : Table)
  | deleted
deriving DecidableEq

/-- The counter, and the pointer. -/
structure St where
  count : Nat
  map : Ptr

/-- What happens: a translation unit (a number) is initialised or ended - at the start and end of the program, or by dlopen and dlclose; code of it
adds a translation or looks up the table. -/
inductive Ev where
  | load (t : Nat)
  | unload (t : Nat)
  | add (t : Nat) (a b : Str)
  | look (t : Nat)
deriving DecidableEq

-- models: unsigned int arithmetic
def wrap (n : Int) : Nat := (n % 4294967296).toNat

-- models: vital/kwiversys/SystemTools.cxx:5300-5306 (constructor of SystemToolsManager) with ClassInitialize making the table `init`
def construct (init : Table) (s : St) : St :=
  let c := wrap (s.count + 1)
  if c = 1 then ⟨c, .table init⟩ else { s with count := c }

-- models: vital/kwiversys/SystemTools.cxx:5308-5314 (destructor), 5395-5398 (ClassFinalize): `none` is a second delete
def destruct (s : St) : Option St :=
  let c := wrap ((s.count : Int) - 1)
  if c = 0 then match s.map with
    | .table _ => some ⟨c, .deleted⟩
    | .null => some ⟨c, .null⟩
    | .deleted => none
  else some { s with count := c }

-- models: uses of *TranslationMap, as in vital/kwiversys/SystemTools.cxx:3458-3520 (AddTranslationPath, CheckTranslationPath): `none` is the use of a
-- null pointer or of a deleted table; simplified: what is added is put in front, without the conditions on the two paths
def step (init : Table) (s : St) : Ev → Option (St × Option Table)
  | .load _ => some (construct init s, none)
  | .unload _ => (destruct s).map (fun s' => (s', none))
  | .add _ a b => match s.map with
    | .table t => some ({ s with map := .table ((a, b) :: t) }, none)
    | _ => none
  | .look _ => match s.map with
    | .table t => some (s, some t)
    | _ => none

/-- All that is looked up, in order; `none` if something undefined happens. -/
def run (init : Table) : St → List Ev → Option (List Table)
  | _, [] => some []
  | s, e :: l => (step init s e).bind (fun r => (run init r.1 l).map (r.2.toList ++ ·))

-- models: vital/kwiversys/SystemTools.cxx:5285-5286: static variables start as zero
def start : St := ⟨0, .null⟩

/-! ### Specification -/

/-- Units are loaded when they are not and unloaded when they are; code of a unit runs while it is loaded; fewer than 2^32 are loaded at a time. -/
def Scoped : List Nat → List Ev → Prop
  | _, [] => True
  | on, .load t :: l => t ∉ on ∧ on.length + 1 < 4294967296 ∧ Scoped (t :: on) l
  | on, .unload t :: l => t ∈ on ∧ Scoped (on.erase t) l
  | on, .add t _ _ :: l => t ∈ on ∧ Scoped on l
  | on, .look t :: l => t ∈ on ∧ Scoped on l

/-- What the look-ups give: the initial table and what was added since there was last no unit loaded. -/
def seen (init : Table) : Nat → Table → List Ev → List Table
  | _, _, [] => []
  | n, tab, .load _ :: l => seen init (n + 1) (if n = 0 then init else tab) l
  | n, tab, .unload _ :: l => seen init (n - 1) tab l
  | n, tab, .add _ a b :: l => seen init n ((a, b) :: tab) l
  | n, tab, .look _ :: l => tab :: seen init n tab l

theorem wrap_small {n : Nat} (h : n < 4294967296) : wrap (n : Int) = n := by unfold wrap; omega

/-- The state while the units `on` are loaded. -/
def Ok (on : List Nat) (tab : Table) (s : St) : Prop :=
  s.count = on.length ∧ on.length < 4294967296 ∧ (if on = [] then s.map = .null ∨ s.map = .deleted else s.map = .table tab)

theorem main (init : Table) (l : List Ev) : ∀ (on : List Nat) (tab : Table) (s : St), Ok on tab s → Scoped on l →
    run init s l = some (seen init on.length tab l) := by
  induction l with
  | nil => intro on tab s _ _; rfl
  | cons e l ih =>
    intro on tab s ⟨hc, hlt, hm⟩ hs
    cases e with
    | load t =>
      obtain ⟨_, h2, h3⟩ := hs
      have hw : wrap ((s.count : Int) + 1) = on.length + 1 := by
        rw [hc]; exact wrap_small (n := on.length + 1) h2
      have hok : Ok (t :: on) (if on.length = 0 then init else tab) (construct init s) := by
        simp only [construct, hw]
        cases on with
        | nil => exact ⟨rfl, by simpa using h2, by simp⟩
        | cons a on =>
          simp only [List.cons_ne_nil, if_false] at hm
          refine ⟨?_, by simpa using h2, ?_⟩
          · rw [if_neg (by simp)]; simp
          · rw [if_neg (by simp), if_neg (by simp)]; simpa using hm
      have := ih (t :: on) _ _ hok h3
      simp only [run, step, Option.bind_some, this, seen, List.length_cons]
      rfl
    | unload t =>
      obtain ⟨h1, h2⟩ := hs
      have hne : on ≠ [] := fun e => by rw [e] at h1; cases h1
      have hpos : 0 < on.length := List.length_pos_iff.mpr hne
      simp only [hne, if_false] at hm
      have hw : wrap ((s.count : Int) - 1) = on.length - 1 := by
        rw [hc, show ((on.length : Int) - 1) = ((on.length - 1 : Nat) : Int) from by omega]
        exact wrap_small (by omega)
      have hlen : (on.erase t).length = on.length - 1 := List.length_erase_of_mem h1
      have hex : ∃ s', destruct s = some s' ∧ Ok (on.erase t) tab s' := by
        simp only [destruct, hw]
        by_cases h0 : on.length - 1 = 0
        · rw [if_pos h0, hm]
          refine ⟨_, rfl, ?_, ?_, ?_⟩
          · exact hlen.symm
          · omega
          · rw [if_pos (List.length_eq_zero_iff.mp (by omega))]; exact Or.inr rfl
        · rw [if_neg h0]
          refine ⟨_, rfl, ?_, ?_, ?_⟩
          · exact hlen.symm
          · omega
          · rw [if_neg (fun e => by rw [e] at hlen; simp at hlen; omega)]; exact hm
      obtain ⟨s', e1, e2⟩ := hex
      have := ih _ _ _ e2 h2
      simp only [run, step, e1, Option.map_some, Option.bind_some, this, seen, hlen]
      rfl
    | add t a b =>
      obtain ⟨h1, h2⟩ := hs
      have hne : on ≠ [] := fun e => by rw [e] at h1; cases h1
      simp only [hne, if_false] at hm
      have := ih on ((a, b) :: tab) { s with map := .table ((a, b) :: tab) } ⟨hc, hlt, by simp [hne]⟩ h2
      simp only [run, step, hm, Option.bind_some, this, seen]
      rfl
    | look t =>
      obtain ⟨h1, h2⟩ := hs
      have hne : on ≠ [] := fun e => by rw [e] at h1; cases h1
      have hm' := hm
      simp only [hne, if_false] at hm'
      have := ih on tab s ⟨hc, hlt, hm⟩ h2
      simp only [run, step, hm', Option.bind_some, this, seen]
      rfl

/-- **C264**: in whatever order units are loaded and unloaded, the code of the loaded ones always finds the table, with the initial entries and all
that was added since the first of them was loaded; it is never deleted twice. -/
theorem C264_table (init : Table) (l : List Ev) (h : Scoped [] l) : run init start l = some (seen init 0 [] l) :=
  main init l [] [] start ⟨rfl, by decide, by simp [start]⟩ h

/-! ### A program: its units are initialised in some order and ended in the reverse order -/

/-- What code of a unit does. -/
inductive Use where
  | add (a b : Str)
  | look

def Use.ev (t : Nat) : Use → Ev
  | .add a b => .add t a b
  | .look => .look t

/-- The run of a program with the units `us` (number, what the constructors of its static objects do, what their destructors do); main is in the
unit `m`. -/
def program (us : List (Nat × List Use × List Use)) (m : Nat) (mainUses : List Use) : List Ev :=
  us.flatMap (fun u => .load u.1 :: u.2.1.map (Use.ev u.1)) ++ mainUses.map (Use.ev m) ++
  us.reverse.flatMap (fun u => u.2.2.map (Use.ev u.1) ++ [.unload u.1])

theorem scoped_uses (on : List Nat) (t : Nat) (us : List Use) (l : List Ev) (ht : t ∈ on) (h : Scoped on l) : Scoped on (us.map (Use.ev t) ++ l) := by
  induction us with
  | nil => exact h
  | cons u us ih => cases u <;> exact ⟨ht, ih⟩

theorem scoped_down (us : List (Nat × List Use × List Use)) : ∀ (on : List Nat), on = us.map (·.1) → on.Nodup →
    Scoped on (us.flatMap (fun u => u.2.2.map (Use.ev u.1) ++ [.unload u.1])) := by
  induction us with
  | nil => intro on _ _; trivial
  | cons u us ih =>
    intro on hon hn
    have hmem : u.1 ∈ on := by rw [hon]; simp
    rw [List.flatMap_cons, List.append_assoc]
    refine scoped_uses on u.1 _ _ hmem ⟨hmem, ?_⟩
    have he : on.erase u.1 = us.map (·.1) := by rw [hon]; simp
    rw [he]
    rw [hon] at hn
    exact ih _ rfl (List.nodup_cons.mp hn).2

theorem scoped_up (us : List (Nat × List Use × List Use)) : ∀ (on : List Nat) (l : List Ev), ((us.map (·.1)).reverse ++ on).Nodup →
    on.length + us.length < 4294967296 → Scoped ((us.map (·.1)).reverse ++ on) l →
    Scoped on (us.flatMap (fun u => .load u.1 :: u.2.1.map (Use.ev u.1)) ++ l) := by
  induction us with
  | nil => intro on l _ _ h; exact h
  | cons u us ih =>
    intro on l hn hlen h
    have e : ((u :: us).map (·.1)).reverse ++ on = (us.map (·.1)).reverse ++ (u.1 :: on) := by simp
    rw [e] at hn h
    rw [List.flatMap_cons, List.cons_append, List.cons_append]
    have hn2 : (u.1 :: on).Nodup := (List.nodup_append.mp hn).2.1
    refine ⟨(List.nodup_cons.mp hn2).1, by simp at hlen; omega, ?_⟩
    rw [List.append_assoc]
    exact scoped_uses _ u.1 _ _ (by simp) (ih _ l hn (by simp at hlen ⊢; omega) h)

/-- **C264** (static objects): for every order in which the units are linked, the constructors and destructors of the static objects of units that
include the header, and main, find the table. -/
theorem C264_static_objects (init : Table) (us : List (Nat × List Use × List Use)) (hn : (us.map (·.1)).Nodup) (hlen : us.length < 4294967296)
    (m : Nat) (hm : m ∈ us.map (·.1)) (mainUses : List Use) : ∃ tabs, run init start (program us m mainUses) = some tabs := by
  refine ⟨_, C264_table init _ ?_⟩
  unfold program
  rw [List.append_assoc]
  refine scoped_up us [] _ (by rw [List.append_nil]; exact (List.pairwise_reverse.mpr (hn.imp (fun h => Ne.symm h)))) (by simpa using hlen) ?_
  rw [List.append_nil]
  refine scoped_uses _ m _ _ (by simpa using hm) ?_
  exact scoped_down us.reverse _ (by simp) ((List.pairwise_reverse.mpr (hn.imp (fun h => Ne.symm h))))

example : run [(c!"/a", c!"/b")] start (program [(1, [.look], [.look]), (2, [.add (c!"/x") (c!"/y")], [.look])] 1 [.look]) =
    some [[(c!"/a", c!"/b")], [(c!"/x", c!"/y"), (c!"/a", c!"/b")], [(c!"/x", c!"/y"), (c!"/a", c!"/b")], [(c!"/x", c!"/y"), (c!"/a", c!"/b")]] := by
  decide +kernel

end Vital.Sys.Mgr
