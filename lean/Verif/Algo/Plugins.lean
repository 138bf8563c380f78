import Verif.Sys.PathsProps
/-
  Model of the algorithm plugin manager (vital/algorithm_plugin_manager.{h,cxx}), POSIX branch.

  The dynamic linker is modelled by its documented contract (dlopen, dlclose): a library that is loaded already is not read again,
  only its use count grows; the library is removed from memory when the count is back at zero.
  Not modelled: log output, plugins that call the plugin manager while they register.
-/
namespace Vital.Plugin
open Vital Vital.Sys

/-- What a registration function hands to the registrar: a full implementation name and the behaviour of the object. -/
structure Item where
  name : Str
  beh : Nat
  deriving DecidableEq

/-- What a shared library file contains, as far as the plugin manager can tell. -/
structure Image where
  /-- The function `private_register_algo_impls`, `none` when the symbol is missing: from the names registered so far, the items it
      registers in this order, and its return value. -/
  entry : Option (List Str → List Item × Int)

/-- The file system during one call. -/
structure FS where
  w : World
  /-- `opendir` / `readdir`: the names in a directory in the order of the listing, `none` when it cannot be opened -/
  entries : Str → Option (List Str)
  /-- the library file that the dynamic linker can read at a path -/
  lib : Str → Option Image

/-- A library in memory. -/
structure Loaded where
  /-- which library file it is, in the judgement of the dynamic linker -/
  obj : Nat
  /-- numbers the times any library was read into memory -/
  inst : Nat
  image : Image
  /-- `dlopen` calls minus `dlclose` calls -/
  count : Nat

/-- An object in the registrar; its code is in the library copy `inst`. -/
structure Obj where
  inst : Nat
  beh : Nat
  deriving DecidableEq

/-- What the world answered when the manager tried a file (recorded for the specification only). -/
inductive Outcome
  | notOpened
  | noEntry
  | returned (r : Int)
  deriving DecidableEq

structure Attempt where
  path : Str
  outcome : Outcome
  deriving DecidableEq

structure State where
  searchPaths : List Str
  /-- `registered_modules_` -/
  modules : OMap Str Str
  loaded : List Loaded
  registry : OMap Str Obj
  next : Nat
  /-- history of the attempts to load a file; not part of the program -/
  log : List Attempt

/-! ### SystemTools::Split -/

-- models: vital/kwiversys/SystemTools.cxx:4085-4106 (Split with a separator), one character at a time; `acc` is the text from `lpos` on
def splitAux (sep : Char) (acc : Str) : Str → List Str
  | [] => if acc = [] then [] else [acc]
  | a :: r => if a = sep then acc :: splitAux sep [] r else splitAux sep (acc ++ [a]) r

-- models: vital/kwiversys/SystemTools.cxx:4085-4106: the pieces appended to `lines`
def split (s : Str) (sep : Char) : List Str := splitAux sep [] s

-- models: vital/kwiversys/SystemTools.cxx:4085-4106: the return value (false when the last line has no separator)
def splitRet (s : Str) (sep : Char) : Bool := s = [] || s.getLast? == some sep

/-! ### The dynamic linker -/

-- models: vital/kwiversys/DynamicLoader.cxx:492-495 (OpenLibrary), by the contract of dlopen.  `key` says which paths denote the same library.
def openLibrary (key : Str → Nat) (fs : FS) (s : State) (p : Str) : Option (Nat × Image × State) :=
  match s.loaded.find? (fun l => l.obj == key p) with
  | some l => some (l.inst, l.image,
      { s with loaded := s.loaded.map (fun m => if m.inst = l.inst then { m with count := m.count + 1 } else m) })
  | none =>
    match fs.lib p with
    | none => none
    | some img => some (s.next, img, { s with loaded := ⟨key p, s.next, img, 1⟩ :: s.loaded, next := s.next + 1 })

-- models: vital/kwiversys/DynamicLoader.cxx:498-507 (CloseLibrary), by the contract of dlclose
def closeLibrary (s : State) (i : Nat) : State :=
  { s with loaded := (s.loaded.map (fun m => if m.inst = i then { m with count := m.count - 1 } else m)).filter (fun m => m.count != 0) }

/-! ### The manager -/

-- models: vital/registrar.h:86-106 (register_item of a non-null item: `im[name] = item`)
def registerItem (i : Nat) (reg : OMap Str Obj) (it : Item) : OMap Str Obj := OMap.insert reg it.name ⟨i, it.beh⟩

def note (s : State) (p : Str) (o : Outcome) : State := { s with log := s.log ++ [⟨p, o⟩] }

-- models: vital/algorithm_plugin_manager.cxx:258
def moduleKey (p : Str) : Str := getFilenameName (getFilenameWithoutLastExtension p)

-- models: vital/algorithm_plugin_manager.cxx:206-264 (register_from_module)
def registerFromModule (key : Str → Nat) (fs : FS) (s : State) (p : Str) : Bool × State :=
  match openLibrary key fs s p with
  | none => (false, note s p .notOpened)
  | some (i, img, s1) =>
    match img.entry with
    | none => (false, note (closeLibrary s1 i) p .noEntry)
    | some f =>
      let (items, r) := f (OMap.keys s1.registry)
      let s2 := { s1 with registry := items.foldl (registerItem i) s1.registry }
      if r > 0 then (false, note (closeLibrary s2 i) p (.returned r))
      else (true, note { s2 with modules := OMap.insert s2.modules (moduleKey p) p } p (.returned r))

def suffix : Str := c!".so"

-- models: vital/algorithm_plugin_manager.cxx:165-187 (the loop over the directory listing); the result of register_from_module is dropped
def loadEntries (key : Str → Nat) (fs : FS) (name dir : Str) (s : State) : List Str → State
  | [] => s
  | e :: es =>
    let file := dir ++ c!"/" ++ e
    let s' :=
      if getFilenameLastExtension file = suffix ∧ (name.length = 0 ∨ getFilenameWithoutExtension file = name) then
        if ¬ fileIsDirectory fs.w file then (registerFromModule key fs s file).2 else s
      else s
    loadEntries key fs name dir s' es

-- models: vital/algorithm_plugin_manager.cxx:136-189 (load_modules_in_directory), vital/kwiversys/Directory.cxx:225-242 (Load)
def loadDir (key : Str → Nat) (fs : FS) (name : Str) (s : State) (dir : Str) : State :=
  if dir = [] then s
  else if ! fileExists fs.w dir then s
  else if ! fileIsDirectory fs.w dir then s
  else
    match fs.entries dir with
    | none => s
    | some es => loadEntries key fs name dir s es

-- models: vital/algorithm_plugin_manager.cxx:114-127 (load_from_search_paths), 366-375 (register_plugins)
def registerPlugins (key : Str → Nat) (fs : FS) (name : Str) (s : State) : State :=
  s.searchPaths.foldl (loadDir key fs name) s

-- models: vital/algorithm_plugin_manager.cxx:378-385 (add_search_path)
def addSearchPath (s : State) (p : Str) : State := { s with searchPaths := s.searchPaths ++ [p] }

-- models: vital/algorithm_plugin_manager.cxx:284-303 (the constructor); `env` is the value of KWIVER_PLUGIN_PATH
def construct (defaults : Str) (env : Option Str) : State :=
  { searchPaths := (match env with | none => [] | some v => split v ':') ++ split defaults ':',
    modules := [], loaded := [], registry := [], next := 0, log := [] }

-- models: vital/algorithm_plugin_manager.cxx:268-277, 397-404 (registered_module_names)
def registeredModuleNames (s : State) : List Str := OMap.keys s.modules

/-- A call of the plugin manager; the file system may be a different one each time. -/
inductive Op
  | addPath (p : Str)
  | register (fs : FS) (name : Str)

def step (key : Str → Nat) (s : State) : Op → State
  | .addPath p => addSearchPath s p
  | .register fs name => registerPlugins key fs name s

def run (key : Str → Nat) (s : State) (ops : List Op) : State := ops.foldl (step key) s

/-! ### Frames -/

theorem note_frame (s : State) (p : Str) (o : Outcome) : (note s p o).searchPaths = s.searchPaths ∧ (note s p o).modules = s.modules ∧
    (note s p o).loaded = s.loaded ∧ (note s p o).registry = s.registry ∧ (note s p o).next = s.next ∧ (note s p o).log = s.log ++ [⟨p, o⟩] := by
  simp [note]

theorem openLibrary_frame {key : Str → Nat} {fs : FS} {s : State} {p : Str} {i : Nat} {img : Image} {s1 : State} (h : openLibrary key fs s p = some (i, img, s1)) :
    s1.searchPaths = s.searchPaths ∧ s1.modules = s.modules ∧ s1.registry = s.registry ∧ s1.log = s.log := by
  unfold openLibrary at h
  split at h
  · cases h; simp
  · split at h
    · cases h
    · cases h; simp

/-- The outcome of the last attempt. -/
theorem registerFromModule_log (key : Str → Nat) (fs : FS) (s : State) (p : Str) :
    ∃ o, (registerFromModule key fs s p).2.log = s.log ++ [⟨p, o⟩] ∧ (registerFromModule key fs s p).2.searchPaths = s.searchPaths ∧
      ((∃ r : Int, o = .returned r ∧ r ≤ 0) → (registerFromModule key fs s p).2.modules = OMap.insert s.modules (moduleKey p) p ∧ (registerFromModule key fs s p).1 = true) ∧
      (¬ (∃ r : Int, o = .returned r ∧ r ≤ 0) → (registerFromModule key fs s p).2.modules = s.modules ∧ (registerFromModule key fs s p).1 = false) := by
  unfold registerFromModule
  cases ho : openLibrary key fs s p with
  | none => exact ⟨.notOpened, by simp [note]⟩
  | some v =>
    obtain ⟨i, img, s1⟩ := v
    obtain ⟨h1, h2, h3, h4⟩ := openLibrary_frame ho
    cases he : img.entry with
    | none => exact ⟨.noEntry, by simp [note, closeLibrary, he, h1, h2, h4]⟩
    | some f =>
      rcases hf : f (OMap.keys s1.registry) with ⟨items, r⟩
      refine ⟨.returned r, ?_⟩
      by_cases hr : r > 0
      · have : ¬ r ≤ 0 := by omega
        simp [note, closeLibrary, he, hf, hr, this, h1, h2, h4]
      · have : r ≤ 0 := by omega
        simp [note, he, hf, hr, this, h1, h2, h4]

/-! ### C131: the search path -/

/-- Specification: `ps` are the parts of `s` between separators; a separator at the very end is only a terminator. -/
structure Pieces (sep : Char) (s : Str) (ps : List Str) : Prop where
  clean : ∀ p ∈ ps, sep ∉ p
  join : (ps.map (· ++ [sep])).flatten = if s = [] ∨ s.getLast? = some sep then s else s ++ [sep]

/-- The specification determines the pieces. -/
theorem pieces_unique (sep : Char) (s : Str) : ∀ ps qs : List Str, Pieces sep s ps → Pieces sep s qs → ps = qs := by
  have key : ∀ ps qs : List Str, (∀ p ∈ ps, sep ∉ p) → (∀ p ∈ qs, sep ∉ p) → (ps.map (· ++ [sep])).flatten = (qs.map (· ++ [sep])).flatten → ps = qs := by
    intro ps
    induction ps with
    | nil =>
      intro qs _ _ h
      cases qs with
      | nil => rfl
      | cons q qs => simp at h
    | cons p ps ih =>
      intro qs hp hq h
      cases qs with
      | nil => simp at h
      | cons q qs =>
        simp only [List.map_cons, List.flatten_cons, List.append_assoc] at h
        have hpn := hp p (by simp)
        have hqn := hq q (by simp)
        have hpq : p = q ∧ (ps.map (· ++ [sep])).flatten = (qs.map (· ++ [sep])).flatten := by
          clear hp hq ih
          induction p generalizing q with
          | nil =>
            cases q with
            | nil => simpa using h
            | cons b q => simp at h; exact absurd h.1 (fun e => hqn (by simp [e]))
          | cons a p ihp =>
            cases q with
            | nil => simp at h; exact absurd h.1 (fun e => hpn (by simp [e]))
            | cons b q =>
              simp only [List.cons_append, List.cons.injEq] at h
              have := ihp q h.2 (by simp at hpn; exact hpn.2) (by simp at hqn; exact hqn.2)
              exact ⟨by rw [h.1, this.1], this.2⟩
        rw [hpq.1, ih qs (fun x hx => hp x (by simp [hx])) (fun x hx => hq x (by simp [hx])) hpq.2]
  intro ps qs h1 h2
  exact key ps qs h1.clean h2.clean (by rw [h1.join, h2.join])

theorem splitAux_spec (sep : Char) : ∀ (s acc : Str), sep ∉ acc →
    (∀ p ∈ splitAux sep acc s, sep ∉ p) ∧
    ((splitAux sep acc s).map (· ++ [sep])).flatten =
      if acc ++ s = [] ∨ (acc ++ s).getLast? = some sep then acc ++ s else acc ++ s ++ [sep] := by
  intro s
  induction s with
  | nil =>
    intro acc h
    have hl : acc.getLast? ≠ some sep := fun e => h (List.mem_of_getLast? e)
    by_cases ha : acc = []
    · simp [splitAux, ha]
    · simp [splitAux, ha, h, hl]
  | cons a r ih =>
    intro acc h
    by_cases ha : a = sep
    · subst ha
      obtain ⟨i1, i2⟩ := ih [] (by simp)
      refine ⟨?_, ?_⟩
      · intro p hp
        simp only [splitAux, if_true, List.mem_cons] at hp
        rcases hp with rfl | hp
        · exact h
        · exact i1 p hp
      · simp only [splitAux, if_true, List.map_cons, List.flatten_cons, i2, List.nil_append]
        cases r with
        | nil => simp
        | cons b r =>
          have e : (acc ++ a :: b :: r).getLast? = (b :: r).getLast? := by
            have : acc ++ a :: b :: r = (acc ++ [a]) ++ (b :: r) := by simp
            rw [this, List.getLast?_append, List.getLast?_eq_some_getLast (l := b :: r) (by simp)]
            rfl
          rw [e]
          by_cases hl : (b :: r).getLast? = some a
          · simp [hl]
          · simp [hl]
    · obtain ⟨i1, i2⟩ := ih (acc ++ [a]) (by simp [h, Ne.symm ha])
      simp only [splitAux, if_neg ha]
      refine ⟨i1, ?_⟩
      rw [i2]
      simp

/-- `SystemTools::Split` cuts a text exactly at its separators. -/
theorem C131_split (s : Str) (sep : Char) : Pieces sep s (split s sep) := by
  have := splitAux_spec sep s [] (by simp)
  exact ⟨this.1, by simpa [split] using this.2⟩

/-- and its result tells whether the text ended with a separator (or was empty). -/
theorem C131_split_ret (s : Str) (sep : Char) : splitRet s sep = true ↔ s = (( split s sep).map (· ++ [sep])).flatten := by
  rw [(C131_split s sep).join]
  unfold splitRet
  by_cases h : s = [] ∨ s.getLast? = some sep
  · rw [if_pos h]; simpa using h
  · rw [if_neg h]
    simp only [Bool.or_eq_true, decide_eq_true_eq, beq_iff_eq, h, false_iff]
    intro e
    have := congrArg List.length e
    simp at this

/-- The directories added by a history of calls. -/
def added : List Op → List Str
  | [] => []
  | .addPath p :: r => p :: added r
  | .register _ _ :: r => added r

theorem loadEntries_searchPaths (key : Str → Nat) (fs : FS) (name dir : Str) : ∀ (es : List Str) (s : State), (loadEntries key fs name dir s es).searchPaths = s.searchPaths := by
  intro es
  induction es with
  | nil => intro s; rfl
  | cons e es ih =>
    intro s
    simp only [loadEntries, ih]
    split
    · split
      · obtain ⟨o, _, h, _⟩ := registerFromModule_log key fs s (dir ++ c!"/" ++ e)
        exact h
      · rfl
    · rfl

theorem loadDir_searchPaths (key : Str → Nat) (fs : FS) (name : Str) (s : State) (dir : Str) : (loadDir key fs name s dir).searchPaths = s.searchPaths := by
  unfold loadDir
  repeat' split
  all_goals first | rfl | exact loadEntries_searchPaths ..

theorem registerPlugins_searchPaths (key : Str → Nat) (fs : FS) (name : Str) (s : State) : (registerPlugins key fs name s).searchPaths = s.searchPaths := by
  have : ∀ (ds : List Str) (s : State), (ds.foldl (loadDir key fs name) s).searchPaths = s.searchPaths := by
    intro ds
    induction ds with
    | nil => intro s; rfl
    | cons d ds ih => intro s; rw [List.foldl_cons, ih, loadDir_searchPaths]
  exact this _ s

theorem run_searchPaths (key : Str → Nat) : ∀ (ops : List Op) (s : State), (run key s ops).searchPaths = s.searchPaths ++ added ops := by
  intro ops
  induction ops with
  | nil => intro s; simp [run, added]
  | cons op ops ih =>
    intro s
    have : run key s (op :: ops) = run key (step key s op) ops := rfl
    rw [this, ih]
    cases op with
    | addPath p => simp [step, addSearchPath, added]
    | register fs name => simp [step, added, registerPlugins_searchPaths]

/-- C131: whatever calls were made, `get_search_path` is the directories of `KWIVER_PLUGIN_PATH`, then the default ones, then the
    ones added with `add_search_path`, each group in its own order. -/
theorem C131_search_path (key : Str → Nat) (defaults : Str) (env : Option Str) (ops : List Op) :
    ∃ fromEnv fromDefault : List Str, Pieces ':' (env.getD []) fromEnv ∧ Pieces ':' defaults fromDefault ∧
      (run key (construct defaults env) ops).searchPaths = fromEnv ++ fromDefault ++ added ops := by
  refine ⟨split (env.getD []) ':', split defaults ':', C131_split _ _, C131_split _ _, ?_⟩
  rw [run_searchPaths]
  cases env with
  | none => simp [construct, split, splitAux]
  | some v => simp [construct]

example : (run (fun _ => 0) (construct (c!"/usr/lib/m:/opt/m") (some (c!"/a::/b:"))) [.addPath (c!"/c"), .register ⟨{}, fun _ => none, fun _ => none⟩ [], .addPath (c!"/d")]).searchPaths
    = [c!"/a", [], c!"/b", c!"/usr/lib/m", c!"/opt/m", c!"/c", c!"/d"] := by decide +kernel

/-! ### C132: which files are tried -/

/-- `n` is the part of the file name that is compared with the name asked for: everything up to the first dot. -/
def FirstPart (e n : Str) : Prop := '.' ∉ n ∧ (e = n ∨ ∃ r, e = n ++ c!"." ++ r)

/-- Specification of a wanted directory entry: a file name ending in ".so" whose part before the first dot is the name asked for (any when
    no name is given), and not a directory. -/
def Wanted (fs : FS) (name dir e : Str) : Prop :=
  (∃ stem, e = stem ++ c!".so") ∧ (name = [] ∨ FirstPart e name) ∧ ¬ fs.w.isDir (dir ++ c!"/" ++ e) = true

/-- A directory of the search path that is read. -/
def Usable (fs : FS) (dir : Str) : Prop := dir ≠ [] ∧ fs.w.readable dir = true ∧ fs.w.isDir dir = true

open Classical in
/-- Specification: the files to try, directory by directory. -/
noncomputable def candidates (fs : FS) (name : Str) (dirs : List Str) : List Str :=
  dirs.flatMap fun d => if Usable fs d then (((fs.entries d).getD []).filter (fun e => decide (Wanted fs name d e))).map (fun e => d ++ c!"/" ++ e) else []

/-- No name in a directory contains a slash. -/
def FS.Plain (fs : FS) : Prop := ∀ d es, fs.entries d = some es → ∀ e ∈ es, '/' ∉ e

theorem afterLast_unique {c : Char} {s r t : Str} (h : s = r ++ c :: t) (ht : c ∉ t) : afterLast c s = t := by
  subst h
  unfold afterLast
  rw [List.reverse_append, List.reverse_cons, List.append_assoc]
  rw [List.takeWhile_append_of_pos (by intro x hx; simp only [bne_iff_ne, ne_eq]; rintro rfl; exact ht (by simpa using hx))]
  simp

theorem beforeLast_unique {c : Char} {s r t : Str} (h : s = r ++ c :: t) (ht : c ∉ t) : beforeLast c s = some r := by
  obtain ⟨_, h1, h2⟩ := afterLast_spec c s
  cases hb : beforeLast c s with
  | none => exact absurd (by rw [h]; simp) (h1 hb).1
  | some q =>
    have e := h2 q hb
    rw [afterLast_unique h ht, h] at e
    have : r ++ c :: t = q ++ c :: t := by simpa using e
    rw [List.append_cancel_right this]

theorem fileName_entry (dir e : Str) (h : '/' ∉ e) : getFilenameName (dir ++ c!"/" ++ e) = e := by
  unfold getFilenameName
  exact afterLast_unique (r := dir) (t := e) (by simp) h

theorem lastExt_iff (dir e : Str) (h : '/' ∉ e) : getFilenameLastExtension (dir ++ c!"/" ++ e) = suffix ↔ ∃ stem, e = stem ++ c!".so" := by
  unfold getFilenameLastExtension
  rw [fileName_entry dir e h]
  obtain ⟨h0, h1, h2⟩ := afterLast_spec '.' e
  constructor
  · intro hx
    cases hb : beforeLast '.' e with
    | none => rw [hb] at hx; cases hx
    | some q =>
      rw [hb] at hx
      have e1 := h2 q hb
      have e2 : afterLast '.' e = c!"so" := by simpa [suffix] using hx
      rw [e2] at e1
      exact ⟨q, by rw [e1]; simp⟩
  · rintro ⟨stem, rfl⟩
    have hu : stem ++ c!".so" = stem ++ '.' :: c!"so" := rfl
    rw [beforeLast_unique hu (by decide), afterLast_unique hu (by decide)]
    rfl

theorem firstPart_iff (e n : Str) : beforeFirst '.' e = n ↔ FirstPart e n := by
  obtain ⟨h0, h1, h2⟩ := beforeFirst_spec '.' e
  constructor
  · rintro rfl
    refine ⟨h0, ?_⟩
    rcases h2 with h2 | h2
    · left; rw [h2] at h1; simpa using h1
    · right
      cases hf : fromFirst '.' e with
      | nil => rw [hf] at h2; cases h2
      | cons a r =>
        rw [hf] at h2 h1
        simp at h2
        exact ⟨r, by rw [h2] at h1; simpa using h1⟩
  · rintro ⟨hn, rfl | ⟨r, rfl⟩⟩
    · unfold beforeFirst
      have : ∀ l : Str, '.' ∉ l → l.takeWhile (· != '.') = l := by
        intro l hl
        have := List.takeWhile_append_of_pos (p := (· != '.')) (l₁ := l) (l₂ := []) (by intro x hx; simp only [bne_iff_ne, ne_eq]; rintro rfl; exact hl hx)
        simpa using this
      exact this _ hn
    · unfold beforeFirst
      rw [List.append_assoc, List.takeWhile_append_of_pos (by intro x hx; simp only [bne_iff_ne, ne_eq]; rintro rfl; exact hn hx)]
      simp

theorem wanted_iff (fs : FS) (name dir e : Str) (h : '/' ∉ e) :
    Wanted fs name dir e ↔ ((getFilenameLastExtension (dir ++ c!"/" ++ e) = suffix ∧ (name.length = 0 ∨ getFilenameWithoutExtension (dir ++ c!"/" ++ e) = name)) ∧ ¬ fileIsDirectory fs.w (dir ++ c!"/" ++ e) = true) := by
  unfold Wanted getFilenameWithoutExtension
  rw [lastExt_iff dir e h, fileName_entry dir e h, firstPart_iff]
  have hne : dir ++ c!"/" ++ e ≠ [] := by simp
  have : fileIsDirectory fs.w (dir ++ c!"/" ++ e) = fs.w.isDir (dir ++ c!"/" ++ e) := by
    unfold fileIsDirectory
    rw [Bool.and_eq_right_iff_imp]
    intro _
    simp
  rw [this]
  constructor
  · rintro ⟨a, b, c⟩; exact ⟨⟨a, by simpa using b⟩, c⟩
  · rintro ⟨⟨a, b⟩, c⟩; exact ⟨a, by simpa using b, c⟩

/-- The files a state tries, as a fold over paths. -/
def tryAll (key : Str → Nat) (fs : FS) (s : State) (ps : List Str) : State := ps.foldl (fun s p => (registerFromModule key fs s p).2) s

open Classical in
theorem loadEntries_eq (key : Str → Nat) (fs : FS) (name dir : Str) : ∀ (es : List Str) (s : State), (∀ e ∈ es, '/' ∉ e) →
    loadEntries key fs name dir s es = tryAll key fs s ((es.filter (fun e => decide (Wanted fs name dir e))).map (fun e => dir ++ c!"/" ++ e)) := by
  intro es
  induction es with
  | nil => intro s _; rfl
  | cons e es ih =>
    intro s h
    have he := h e (by simp)
    have hw := wanted_iff fs name dir e he
    rw [loadEntries, ih _ (fun x hx => h x (by simp [hx]))]
    by_cases hW : Wanted fs name dir e
    · obtain ⟨h1, h2⟩ := hw.1 hW
      rw [List.filter_cons_of_pos (by simpa using hW)]
      rw [if_pos h1, if_pos h2]
      rfl
    · rw [List.filter_cons_of_neg (by simpa using hW)]
      by_cases h1 : getFilenameLastExtension (dir ++ c!"/" ++ e) = suffix ∧ (name.length = 0 ∨ getFilenameWithoutExtension (dir ++ c!"/" ++ e) = name)
      · have h2 : ¬ ¬ fileIsDirectory fs.w (dir ++ c!"/" ++ e) = true := fun h2 => hW (hw.2 ⟨h1, h2⟩)
        rw [if_pos h1, if_neg h2]
      · rw [if_neg h1]

open Classical in
theorem loadDir_eq (key : Str → Nat) (fs : FS) (hfs : fs.Plain) (name : Str) (s : State) (dir : Str) :
    loadDir key fs name s dir = tryAll key fs s (candidates fs name [dir]) := by
  unfold candidates
  simp only [List.flatMap_cons, List.flatMap_nil, List.append_nil]
  unfold loadDir
  by_cases h0 : dir = []
  · have : ¬ Usable fs dir := fun h => h.1 h0
    rw [if_pos h0, if_neg this]; rfl
  · rw [if_neg h0]
    have hne : (dir != []) = true := by simpa using h0
    by_cases h1 : fs.w.readable dir = true
    · by_cases h2 : fs.w.isDir dir = true
      · have hU : Usable fs dir := ⟨h0, h1, h2⟩
        rw [if_pos hU]
        have e1 : (!fileExists fs.w dir) = false := by simp [fileExists, h0, h1]
        have e2 : (!fileIsDirectory fs.w dir) = false := by simp [fileIsDirectory, h0, h2]
        rw [e1, e2]
        simp only [Bool.false_eq_true, if_false]
        cases hE : fs.entries dir with
        | none => rfl
        | some es => exact loadEntries_eq key fs name dir es s (hfs dir es hE)
      · have hU : ¬ Usable fs dir := fun h => h2 h.2.2
        have e2 : (!fileIsDirectory fs.w dir) = true := by simp [fileIsDirectory, h2]
        rw [if_neg hU, e2]
        split <;> rfl
    · have hU : ¬ Usable fs dir := fun h => h1 h.2.1
      have e1 : (!fileExists fs.w dir) = true := by simp [fileExists, h1]
      rw [if_neg hU, e1]
      rfl

theorem registerPlugins_eq (key : Str → Nat) (fs : FS) (hfs : fs.Plain) (name : Str) (s : State) :
    registerPlugins key fs name s = tryAll key fs s (candidates fs name s.searchPaths) := by
  have : ∀ (ds : List Str) (s : State), ds.foldl (loadDir key fs name) s = tryAll key fs s (candidates fs name ds) := by
    intro ds
    induction ds with
    | nil => intro s; rfl
    | cons d ds ih =>
      intro s
      rw [List.foldl_cons, loadDir_eq key fs hfs, ih]
      have : candidates fs name (d :: ds) = candidates fs name [d] ++ candidates fs name ds := by simp [candidates]
      rw [this]
      simp [tryAll]
  exact this _ s

theorem tryAll_log (key : Str → Nat) (fs : FS) : ∀ (ps : List Str) (s : State), ∃ l, (tryAll key fs s ps).log = s.log ++ l ∧ l.map Attempt.path = ps := by
  intro ps
  induction ps with
  | nil => intro s; exact ⟨[], by simp [tryAll]⟩
  | cons p ps ih =>
    intro s
    obtain ⟨o, h1, _⟩ := registerFromModule_log key fs s p
    obtain ⟨l, h2, h3⟩ := ih (registerFromModule key fs s p).2
    refine ⟨⟨p, o⟩ :: l, ?_, by simp [h3]⟩
    show (tryAll key fs (registerFromModule key fs s p).2 ps).log = _
    rw [h2, h1]; simp

/-- C132: a call of `register_plugins` tries to load exactly the wanted files of the readable directories on the search path, in
    the order of the search path and of each directory's listing. -/
theorem C132_files (key : Str → Nat) (fs : FS) (hfs : fs.Plain) (name : Str) (s : State) :
    ∃ l, (registerPlugins key fs name s).log = s.log ++ l ∧ l.map Attempt.path = candidates fs name s.searchPaths := by
  rw [registerPlugins_eq key fs hfs]
  exact tryAll_log key fs _ s

/-- When no file is wanted, nothing changes. -/
theorem C132_nothing (key : Str → Nat) (fs : FS) (hfs : fs.Plain) (name : Str) (s : State)
    (h : ∀ d ∈ s.searchPaths, Usable fs d → ∀ es, fs.entries d = some es → ∀ e ∈ es, ¬ Wanted fs name d e) : registerPlugins key fs name s = s := by
  rw [registerPlugins_eq key fs hfs]
  have : candidates fs name s.searchPaths = [] := by
    unfold candidates
    rw [List.flatMap_eq_nil_iff]
    intro d hd
    split
    · rename_i hU
      rw [List.map_eq_nil_iff, List.filter_eq_nil_iff]
      intro e he
      cases hE : fs.entries d with
      | none => simp [hE] at he
      | some es => simp [hE] at he; simpa using h d hd hU es hE e he
    · rfl
  rw [this]; rfl

/-! ### C133: the registered modules -/

/-- The module name of a file: the file name without its last extension. -/
def IsModuleName (path n : Str) : Prop := ∃ f, (path = f ∨ ∃ d, path = d ++ c!"/" ++ f) ∧ '/' ∉ f ∧
  ((∃ x, f = n ++ c!"." ++ x ∧ '.' ∉ x) ∨ ('.' ∉ f ∧ f = n))

theorem moduleKey_iff (p n : Str) : moduleKey p = n ↔ IsModuleName p n := by
  have hk : moduleKey p = getFilenameWithoutLastExtension p := by
    unfold moduleKey
    have hns : '/' ∉ getFilenameWithoutLastExtension p := by
      unfold getFilenameWithoutLastExtension getFilenameName
      obtain ⟨h0, _, _⟩ := afterLast_spec '/' p
      obtain ⟨_, _, h2⟩ := afterLast_spec '.' (afterLast '/' p)
      split
      · exact h0
      · rename_i stem hb
        have := h2 stem hb
        intro hm
        apply h0
        rw [this]
        simp [hm]
    unfold getFilenameName
    obtain ⟨_, h1, h2⟩ := afterLast_spec '/' (getFilenameWithoutLastExtension p)
    cases hb : beforeLast '/' (getFilenameWithoutLastExtension p) with
    | none => exact (h1 hb).2
    | some r => exact absurd (by rw [h2 r hb]; simp) hns
  rw [hk]
  unfold getFilenameWithoutLastExtension getFilenameName
  obtain ⟨h0, h1, h2⟩ := afterLast_spec '/' p
  obtain ⟨g0, g1, g2⟩ := afterLast_spec '.' (afterLast '/' p)
  constructor
  · intro h
    refine ⟨afterLast '/' p, ?_, h0, ?_⟩
    · cases hb : beforeLast '/' p with
      | none => left; exact (h1 hb).2.symm
      | some r => right; exact ⟨r, h2 r hb⟩
    · cases hb : beforeLast '.' (afterLast '/' p) with
      | none => right; rw [hb] at h; exact ⟨(g1 hb).1, h⟩
      | some r => left; rw [hb] at h; simp at h; subst h; exact ⟨_, g2 r hb, g0⟩
  · rintro ⟨f, hf, hn, hx⟩
    have ef : afterLast '/' p = f := by
      rcases hf with rfl | ⟨d, rfl⟩
      · cases hb : beforeLast '/' p with
        | none => exact (h1 hb).2
        | some r => exact absurd (by rw [h2 r hb]; simp) hn
      · exact fileName_entry d f hn
    rw [ef]
    rcases hx with ⟨x, rfl, hx⟩ | ⟨hx, rfl⟩
    · have := beforeLast_unique (c := '.') (s := n ++ c!"." ++ x) (r := n) (t := x) (by simp) hx
      rw [this]
    · cases hb : beforeLast '.' f with
      | none => rfl
      | some r =>
        obtain ⟨_, _, g⟩ := afterLast_spec '.' f
        exact absurd (by rw [g r hb]; simp) hx

/-- Specification: among the attempts, the last one that ended well for a file with module name `n` was for the file `p`. -/
def LastGood (log : List Attempt) (n p : Str) : Prop :=
  ∃ pre post r, log = pre ++ ⟨p, .returned r⟩ :: post ∧ r ≤ 0 ∧ IsModuleName p n ∧
    ∀ q, q ∈ post → ∀ r' : Int, r' ≤ 0 → q.outcome = .returned r' → ¬ IsModuleName q.path n

/-- The invariant linking the module table and the history. -/
def Table (s : State) : Prop := OMap.Sorted s.modules ∧ ∀ n p, OMap.find? s.modules n = some p ↔ LastGood s.log n p

open Classical in
theorem lastGood_snoc (log : List Attempt) (q : Attempt) (n p : Str) : LastGood (log ++ [q]) n p ↔
    (if (∃ r : Int, q.outcome = .returned r ∧ r ≤ 0) ∧ IsModuleName q.path n then q.path = p else LastGood log n p) := by
  constructor
  · rintro ⟨pre, post, r, h, hr, hn, hl⟩
    rcases List.eq_nil_or_concat post with rfl | ⟨post', y, rfl⟩
    · have := List.append_inj' h rfl
      have e : q = ⟨p, .returned r⟩ := by simpa using this.2
      subst e
      rw [if_pos ⟨⟨r, rfl, hr⟩, hn⟩]
    · have h' : log ++ [q] = (pre ++ ⟨p, .returned r⟩ :: post') ++ [y] := by simpa using h
      have := List.append_inj' h' rfl
      have e : q = y := by simpa using this.2
      subst e
      rw [if_neg]
      · exact ⟨pre, post', r, this.1, hr, hn, fun x hx => hl x (by simp [hx])⟩
      · rintro ⟨⟨r', h1, h2⟩, h3⟩
        exact hl q (by simp) r' h2 h1 h3
  · split
    · rename_i hc
      rintro rfl
      obtain ⟨⟨r, h1, h2⟩, h3⟩ := hc
      refine ⟨log, [], r, ?_, h2, h3, by simp⟩
      rw [← h1]
    · rename_i hc
      rintro ⟨pre, post, r, h, hr, hn, hl⟩
      refine ⟨pre, post ++ [q], r, by simp [h], hr, hn, ?_⟩
      intro x hx r' hr' ho hm
      rw [List.mem_append] at hx
      rcases hx with hx | hx
      · exact hl x hx r' hr' ho hm
      · simp at hx; subst hx; exact hc ⟨⟨r', ho, hr'⟩, hm⟩

theorem table_register (key : Str → Nat) (fs : FS) (s : State) (p : Str) (h : Table s) : Table (registerFromModule key fs s p).2 := by
  obtain ⟨o, h1, _, h2, h3⟩ := registerFromModule_log key fs s p
  unfold Table
  rw [h1]
  by_cases hg : ∃ r : Int, o = .returned r ∧ r ≤ 0
  · rw [(h2 hg).1]
    refine ⟨OMap.sorted_insert h.1 _ _, ?_⟩
    intro n q
    rw [lastGood_snoc, OMap.find?_insert, ← moduleKey_iff, ← h.2]
    by_cases hk : n = moduleKey p
    · subst hk; simp [hg]
    · simp [hk, Ne.symm hk]
  · rw [(h3 hg).1]
    refine ⟨h.1, ?_⟩
    intro n q
    rw [lastGood_snoc, ← h.2, if_neg (fun hc => hg hc.1)]

theorem table_step (key : Str → Nat) (s : State) (op : Op) (h : Table s) : Table (step key s op) := by
  cases op with
  | addPath p => exact h
  | register fs name =>
    have hEntries : ∀ (dir : Str) (es : List Str) (s : State), Table s → Table (loadEntries key fs name dir s es) := by
      intro dir es
      induction es with
      | nil => intro s h; exact h
      | cons e es ih =>
        intro s h
        rw [loadEntries]
        apply ih
        split
        · split
          · exact table_register key fs s _ h
          · exact h
        · exact h
    have hDir : ∀ (s : State) (d : Str), Table s → Table (loadDir key fs name s d) := by
      intro s d h
      unfold loadDir
      repeat' split
      all_goals first | exact h | exact hEntries _ _ _ h
    have : ∀ (ds : List Str) (s : State), Table s → Table (ds.foldl (loadDir key fs name) s) := by
      intro ds
      induction ds with
      | nil => intro s h; exact h
      | cons d ds ih => intro s h; exact ih _ (hDir s d h)
    exact this _ s h

theorem table_run (key : Str → Nat) : ∀ (ops : List Op) (s : State), Table s → Table (run key s ops) := by
  intro ops
  induction ops with
  | nil => intro s h; exact h
  | cons op ops ih => intro s h; exact ih _ (table_step key s op h)

theorem table_construct (d : Str) (e : Option Str) : Table (construct d e) := by
  refine ⟨List.Pairwise.nil, ?_⟩
  intro n p
  simp only [construct, OMap.find?]
  constructor
  · intro h; cases h
  · rintro ⟨pre, post, r, h, _⟩; simp at h

/-- C133: after any history of calls, `registered_module_names` lists, in ascending order and without repetition, exactly the
    module names of the files whose registration function ran and did not return a positive number. -/
theorem C133_module_names (key : Str → Nat) (d : Str) (e : Option Str) (ops : List Op) :
    let s := run key (construct d e) ops
    (registeredModuleNames s).Pairwise (fun a b => strLt a b = true) ∧
    ∀ n, n ∈ registeredModuleNames s ↔ ∃ q ∈ s.log, ∃ r : Int, q.outcome = .returned r ∧ r ≤ 0 ∧ IsModuleName q.path n := by
  intro s
  have hT : Table s := table_run key ops _ (table_construct d e)
  refine ⟨OMap.sorted_keys hT.1, ?_⟩
  intro n
  unfold registeredModuleNames
  rw [OMap.mem_keys_iff]
  constructor
  · intro h
    obtain ⟨p, hp⟩ := Option.isSome_iff_exists.1 h
    obtain ⟨pre, post, r, hl, hr, hn, _⟩ := (hT.2 n p).1 hp
    exact ⟨⟨p, .returned r⟩, by rw [hl]; simp, r, rfl, hr, hn⟩
  · rintro ⟨q, hq, r, ho, hr, hn⟩
    have key' : ∀ log : List Attempt, q ∈ log → ∃ p, LastGood log n p := by
      intro log
      have : ∀ l : List Attempt, q ∈ l.reverse → ∃ p, LastGood l.reverse n p := by
        intro l
        induction l with
        | nil => simp
        | cons x l ih =>
          intro hx
          rw [List.reverse_cons] at hx ⊢
          simp only [lastGood_snoc]
          by_cases hc : (∃ r : Int, x.outcome = .returned r ∧ r ≤ 0) ∧ IsModuleName x.path n
          · exact ⟨x.path, by rw [if_pos hc]⟩
          · have hql : q ∈ l.reverse := by
              rw [List.mem_append] at hx
              rcases hx with hx | hx
              · exact hx
              · simp at hx; subst hx; exact absurd ⟨⟨r, ho, hr⟩, hn⟩ hc
            obtain ⟨p, hp⟩ := ih hql
            exact ⟨p, by rw [if_neg hc]; exact hp⟩
      intro h
      have := this log.reverse (by simpa using h)
      simpa using this
    obtain ⟨p, hp⟩ := key' s.log hq
    rw [(hT.2 n p).2 hp]; rfl

end Vital.Plugin
