import Verif.Algo.Plugins
import Verif.Py.ConfigBlock
/-
  The Python class AlgorithmPluginManager (vital/bindings/python/vital/apm.py) and the C functions under it
  (vital/bindings/c/algorithm_plugin_manager.cxx) on top of the manager of Verif.Algo.Plugins; property C268.

  Python strings reach the C side as C strings (ctypes: cut at the first NUL); `None` as a null pointer, from which a std::string must
  not be made (undefined behaviour; libstdc++ throws and the C function drops the exception).  `usable n` is the number of bytes that a
  block from malloc( n ) really has, as in C211 - C213.  None of the C++ functions below throws.
-/
namespace Vital.Py.Apm
open Vital Vital.CApi

/-- One statement of a Python program. -/
inductive Op where
  /-- register_plugins( name ), with the file system at that time -/
  | register (fs : Plugin.FS) (name : Option Str)
  /-- add_search_path( dirpath ) -/
  | addPath (p : Option Str)
  | names

/-- What a statement gives back to the program. -/
inductive Val where
  | none
  | names (l : List Str)
  deriving DecidableEq

/-- The manager, and the blocks the C side allocated for Python that are not freed. -/
structure St where
  m : Plugin.State
  owed : Nat

-- models: vital/bindings/c/algorithm_plugin_manager.cxx:49-55 (vital_apm_register_plugins)
def cRegisterAll (key : Str → Nat) (fs : Plugin.FS) (s : St) : St := { s with m := Plugin.registerPlugins key fs [] s.m }

-- models: vital/bindings/c/algorithm_plugin_manager.cxx:59-65 (vital_apm_register_single_plugin); the name is a C string
def cRegisterOne (key : Str → Nat) (fs : Plugin.FS) (s : St) (name : Str) : St := { s with m := Plugin.registerPlugins key fs name s.m }

-- models: vital/bindings/c/algorithm_plugin_manager.cxx:69-75 (vital_apm_add_search_path)
def cAddPath (s : St) (p : Str) : St := { s with m := Plugin.addSearchPath s.m p }

-- models: vital/bindings/c/algorithm_plugin_manager.cxx:79-94 (vital_apm_registered_module_names) with c_utils.cxx:42-52
-- (make_string_list): one block for the array and one for each string; `none` = a block was too small
def cNames (usable : Nat → Nat) (s : St) : Option (St × List Str) :=
  (Py.CB.stringList usable (Plugin.registeredModuleNames s.m)).map fun l => ({ s with owed := s.owed + (1 + l.length) }, l)

-- models: vital/bindings/c/common.cxx:70-78 (vital_common_free_string_list)
def cFree (s : St) (l : List Str) : St := { s with owed := s.owed - (l.length + 1) }

-- models: vital/bindings/python/vital/apm.py:47-68 (register_plugins)
def register (key : Str → Nat) (fs : Plugin.FS) (s : St) (name : Option Str) : Option (St × Val) :=
  match name with
  | none => some (cRegisterAll key fs s, .none)
  | some n => some (cRegisterOne key fs s (cstr n), .none)

-- models: vital/bindings/python/vital/apm.py:70-81 (add_search_path): `None` becomes a null pointer
def addPath (s : St) (p : Option Str) : Option (St × Val) :=
  match p with
  | none => none
  | some d => some (cAddPath s (cstr d), .none)

-- models: vital/bindings/python/vital/apm.py:83-117 (registered_module_names): the strings are copied, then the list is freed
def moduleNames (usable : Nat → Nat) (s : St) : Option (St × Val) :=
  match cNames usable s with
  | none => none
  | some (s', l) => some (cFree s' l, .names l)

def step (key : Str → Nat) (usable : Nat → Nat) (s : St) : Op → Option (St × Val)
  | .register fs n => register key fs s n
  | .addPath p => addPath s p
  | .names => moduleNames usable s

/-- A Python program: what each statement gave; `none` = undefined behaviour on the way. -/
def run (key : Str → Nat) (usable : Nat → Nat) (s : St) : List Op → Option (St × List Val)
  | [] => some (s, [])
  | op :: ops =>
    match step key usable s op with
    | none => none
    | some (s1, v) =>
      match run key usable s1 ops with
      | none => none
      | some (s2, vs) => some (s2, v :: vs)

/-! ### Specification -/

/-- The call of the C++ class that a statement stands for. -/
def cppCall : Op → Option Plugin.Op
  | .register fs none => some (.register fs [])
  | .register fs (some n) => some (.register fs n)
  | .addPath (some p) => some (.addPath p)
  | .addPath none => none
  | .names => none

/-- What a statement should give, the C++ manager being `m`. -/
def answer (m : Plugin.State) : Op → Val
  | .names => .names (Plugin.registeredModuleNames m)
  | _ => .none

/-- The manager and the answers that the same C++ calls give. -/
def cppRun (key : Str → Nat) (m : Plugin.State) : List Op → Plugin.State × List Val
  | [] => (m, [])
  | op :: ops =>
    let m1 := match cppCall op with
      | some c => Plugin.step key m c
      | none => m
    ((cppRun key m1 ops).1, answer m op :: (cppRun key m1 ops).2)

/-- The text arguments are texts without NUL and not None. -/
def Clean : Op → Prop
  | .register _ none => True
  | .register _ (some n) => nul ∉ n
  | .addPath (some p) => nul ∉ p
  | .addPath none => False
  | .names => True

/-- No file name contains a NUL. -/
def NoNul : Op → Prop
  | .register fs _ => ∀ d es, fs.entries d = some es → ∀ e ∈ es, nul ∉ e
  | _ => True

/-- Full property C268: every Python program is defined, gives the answers of the same C++ calls, and leaves no block behind. -/
def C268_statement (usable : Nat → Nat) : Prop := ∀ (key : Str → Nat) (m : Plugin.State) (ops : List Op),
  (∀ n ∈ Plugin.registeredModuleNames m, nul ∉ n) → (∀ op ∈ ops, NoNul op ∧ op ≠ .addPath none) →
    run key usable ⟨m, 0⟩ ops = some (⟨(cppRun key m ops).1, 0⟩, (cppRun key m ops).2)

/-! ### Module names hold no NUL -/

def NamesClean (m : Plugin.State) : Prop := ∀ n ∈ Plugin.registeredModuleNames m, nul ∉ n

theorem moduleKey_clean (d e : Str) (he : nul ∉ e) (hs : '/' ∉ e) : nul ∉ Plugin.moduleKey (d ++ c!"/" ++ e) := by
  obtain ⟨f, hf, hn, hx⟩ := (Plugin.moduleKey_iff (d ++ c!"/" ++ e) _).1 rfl
  have h1 := Plugin.fileName_entry d e hs
  have h2 : Sys.getFilenameName (d ++ c!"/" ++ e) = f := by
    rcases hf with h | ⟨d', h⟩
    · exact absurd (by rw [← h]; simp) hn
    · rw [h]; exact Plugin.fileName_entry d' f hn
  rw [h1] at h2
  subst h2
  rcases hx with ⟨x, h, _⟩ | ⟨_, h⟩
  · intro hm; exact he (by rw [h]; exact List.mem_append_left _ (List.mem_append_left _ hm))
  · rw [← h]; exact he

/-- The plainness needed: neither NUL nor slash in a file name. -/
def PlainFs (fs : Plugin.FS) : Prop := ∀ d es, fs.entries d = some es → ∀ e ∈ es, nul ∉ e ∧ '/' ∉ e

theorem names_insert (m : Plugin.State) (k p : Str) (h : NamesClean m) (hk : nul ∉ k) : ∀ n ∈ OMap.keys (OMap.insert m.modules k p), nul ∉ n := by
  intro n hn
  rw [OMap.mem_keys_iff, OMap.find?_insert] at hn
  by_cases hc : n = k
  · rw [hc]; exact hk
  · rw [if_neg hc] at hn
    exact h n (by unfold Plugin.registeredModuleNames; rw [OMap.mem_keys_iff]; exact hn)

theorem clean_registerFromModule (key : Str → Nat) (fs : Plugin.FS) (m : Plugin.State) (p : Str) (h : NamesClean m) (hp : nul ∉ Plugin.moduleKey p) :
    NamesClean (Plugin.registerFromModule key fs m p).2 := by
  obtain ⟨o, _, _, h2, h3⟩ := Plugin.registerFromModule_log key fs m p
  unfold NamesClean Plugin.registeredModuleNames
  by_cases hg : ∃ r : Int, o = .returned r ∧ r ≤ 0
  · rw [(h2 hg).1]; exact names_insert m _ _ h hp
  · rw [(h3 hg).1]; exact h

theorem clean_registerPlugins (key : Str → Nat) (fs : Plugin.FS) (hfs : PlainFs fs) (name : Str) (m : Plugin.State) (h : NamesClean m) :
    NamesClean (Plugin.registerPlugins key fs name m) := by
  have hEntries : ∀ (dir : Str) (es : List Str), (∀ e ∈ es, nul ∉ e ∧ '/' ∉ e) → ∀ m : Plugin.State, NamesClean m → NamesClean (Plugin.loadEntries key fs name dir m es) := by
    intro dir es
    induction es with
    | nil => intro _ m h; exact h
    | cons e es ih =>
      intro he m h
      rw [Plugin.loadEntries]
      apply ih (fun x hx => he x (by simp [hx]))
      split
      · split
        · exact clean_registerFromModule key fs m _ h (moduleKey_clean dir e (he e (by simp)).1 (he e (by simp)).2)
        · exact h
      · exact h
  have hDir : ∀ (m : Plugin.State) (d : Str), NamesClean m → NamesClean (Plugin.loadDir key fs name m d) := by
    intro m d h
    unfold Plugin.loadDir
    split
    · exact h
    · split
      · exact h
      · split
        · exact h
        · cases hE : fs.entries d with
          | none => exact h
          | some es => exact hEntries d es (hfs d es hE) m h
  have : ∀ (ds : List Str) (m : Plugin.State), NamesClean m → NamesClean (ds.foldl (Plugin.loadDir key fs name) m) := by
    intro ds
    induction ds with
    | nil => intro m h; exact h
    | cons d ds ih => intro m h; exact ih _ (hDir m d h)
  exact this _ m h

/-! ### The string list -/

theorem stringList_ok (usable : Nat → Nat) : ∀ l : List Str, (∀ n ∈ l, nul ∉ n) →
    Py.CB.stringList usable l = if ∀ n ∈ l, n.length + 1 ≤ usable n.length then some l else none := by
  intro l
  induction l with
  | nil => intro _; simp [Py.CB.stringList]
  | cons a l ih =>
    intro h
    have ha : cstr a = a := cstr_self (h a (by simp))
    rw [Py.CB.stringList, ha, ih (fun n hn => h n (by simp [hn]))]
    by_cases h1 : a.length + 1 ≤ usable a.length
    · rw [if_pos h1]
      by_cases h2 : ∀ n ∈ l, n.length + 1 ≤ usable n.length
      · rw [if_pos h2, if_pos (by simpa using ⟨h1, h2⟩)]; rfl
      · rw [if_neg h2, if_neg (fun h => h2 (fun n hn => h n (by simp [hn])))]; rfl
    · rw [if_neg h1, if_neg (fun h => h1 (h a (by simp)))]

/-- The blocks of every listed name are large enough. -/
def Fits (usable : Nat → Nat) (m : Plugin.State) : Prop := ∀ n ∈ Plugin.registeredModuleNames m, n.length + 1 ≤ usable n.length

/-- A `registered_module_names` statement is defined exactly when every name fits its block; then it gives the names and frees all. -/
theorem C268_names (key : Str → Nat) (usable : Nat → Nat) (s : St) (h : NamesClean s.m) :
    (Fits usable s.m → step key usable s .names = some (s, .names (Plugin.registeredModuleNames s.m))) ∧
    (¬ Fits usable s.m → step key usable s .names = none) := by
  have e := stringList_ok usable (Plugin.registeredModuleNames s.m) h
  constructor
  · intro hf
    rw [if_pos (show ∀ n ∈ _, _ from hf)] at e
    have : s.owed + (1 + (Plugin.registeredModuleNames s.m).length) - ((Plugin.registeredModuleNames s.m).length + 1) = s.owed := by omega
    simp only [step, moduleNames, cNames, e, Option.map, cFree, this]
  · intro hf
    rw [if_neg (show ¬ ∀ n ∈ _, _ from hf)] at e
    simp only [step, moduleNames, cNames, e, Option.map]

/-- What holds: with an allocator whose blocks always have a byte to spare, every program with clean arguments gives exactly the
    answers of the same C++ calls, and leaves no block behind.
    Missing: allocators without a spare byte, arguments with a NUL, and `add_search_path( None )`. -/
theorem C268_python_partial (usable : Nat → Nat) (hu : ∀ n, n + 1 ≤ usable n) (key : Str → Nat) :
    ∀ (ops : List Op) (m : Plugin.State), NamesClean m → (∀ op ∈ ops, Clean op) →
      (∀ fs n, Op.register fs n ∈ ops → PlainFs fs) →
      run key usable ⟨m, 0⟩ ops = some (⟨(cppRun key m ops).1, 0⟩, (cppRun key m ops).2) := by
  intro ops
  induction ops with
  | nil => intro m _ _ _; rfl
  | cons op ops ih =>
    intro m hm hc hp
    have hc' : ∀ op ∈ ops, Clean op := fun o ho => hc o (by simp [ho])
    have hp' : ∀ fs n, Op.register fs n ∈ ops → PlainFs fs := fun fs n ho => hp fs n (by simp [ho])
    have hop := hc op (by simp)
    cases op with
    | register fs name =>
      have hfs := hp fs name (by simp)
      cases name with
      | none =>
        have := ih (Plugin.registerPlugins key fs [] m) (clean_registerPlugins key fs hfs [] m hm) hc' hp'
        simp only [run, step, register, cRegisterAll, this, cppRun, cppCall, Plugin.step, answer]
      | some n =>
        have e : cstr n = n := cstr_self hop
        have := ih (Plugin.registerPlugins key fs n m) (clean_registerPlugins key fs hfs n m hm) hc' hp'
        simp only [run, step, register, cRegisterOne, e, this, cppRun, cppCall, Plugin.step, answer]
    | addPath p =>
      cases p with
      | none => exact False.elim hop
      | some d =>
        have e : cstr d = d := cstr_self hop
        have := ih (Plugin.addSearchPath m d) hm hc' hp'
        simp only [run, step, addPath, cAddPath, e, this, cppRun, cppCall, Plugin.step, answer]
    | names =>
      have h1 := (C268_names key usable ⟨m, 0⟩ hm).1 (fun n _ => hu n.length)
      have := ih m hm hc' hp'
      simp only [run, h1, this, cppRun, cppCall, answer]

/-- The blocks of glibc on a 64-bit machine: 24 bytes, then steps of 16. -/
def glibc (n : Nat) : Nat := if n ≤ 24 then 24 else (n + 8 + 15) / 16 * 16 - 8

theorem glibc_fits (n : Nat) : n + 1 ≤ glibc n ↔ ¬ (24 ≤ n ∧ n % 16 = 8) := by
  unfold glibc
  split <;> omega

/-- With the blocks of glibc, `registered_module_names` works exactly when no module name is 24, 40, 56, … characters long. -/
theorem C268_glibc (key : Str → Nat) (s : St) (h : NamesClean s.m) :
    (step key glibc s .names).isSome ↔ ∀ n ∈ Plugin.registeredModuleNames s.m, ¬ (24 ≤ n.length ∧ n.length % 16 = 8) := by
  have hi : Fits glibc s.m ↔ ∀ n ∈ Plugin.registeredModuleNames s.m, ¬ (24 ≤ n.length ∧ n.length % 16 = 8) := by
    unfold Fits
    constructor
    · intro hf n hn; exact (glibc_fits _).1 (hf n hn)
    · intro hf n hn; exact (glibc_fits _).2 (hf n hn)
  rw [← hi]
  by_cases hf : Fits glibc s.m
  · rw [(C268_names key glibc s h).1 hf]; simp [hf]
  · rw [(C268_names key glibc s h).2 hf]; simp [hf]

/-- C268 is false of the code: with blocks of exactly the requested size, no program can list one module; and a name that starts with
    a NUL, whatever follows, loads all plugins. -/
theorem C268_refuted :
    (∀ (key : Str → Nat) (s : St), NamesClean s.m → Plugin.registeredModuleNames s.m ≠ [] → step key (fun n => n) s .names = none) ∧
    (∀ (key : Str → Nat) (usable : Nat → Nat) (s : St) (fs : Plugin.FS) (n : Str),
      step key usable s (.register fs (some (nul :: n))) = step key usable s (.register fs none)) ∧
    ¬ C268_statement (fun n => n) := by
  have h1 : ∀ (key : Str → Nat) (s : St), NamesClean s.m → Plugin.registeredModuleNames s.m ≠ [] → step key (fun n => n) s .names = none := by
    intro key s h hne
    apply (C268_names key (fun n => n) s h).2
    intro hf
    obtain ⟨a, l, e⟩ := List.exists_cons_of_ne_nil hne
    have : a.length + 1 ≤ a.length := hf a (by rw [e]; simp)
    omega
  refine ⟨h1, ?_, ?_⟩
  · intro key usable s fs n
    simp only [step, register, cRegisterOne, cRegisterAll]
    rfl
  · intro h
    have := h (fun _ => 0) { searchPaths := [], modules := [(c!"m", c!"/m.so")], loaded := [], registry := [], next := 0, log := [] } [.names]
      (by decide) (by simp [NoNul])
    have e := h1 (fun _ => 0) ⟨{ searchPaths := [], modules := [(c!"m", c!"/m.so")], loaded := [], registry := [], next := 0, log := [] }, 0⟩
      (by unfold NamesClean; decide) (by decide)
    simp only [run, e] at this
    cases this

/-- The empty name, too, loads all plugins although the documentation says that only the named one is tried. -/
theorem C268_empty_name (key : Str → Nat) (usable : Nat → Nat) (s : St) (fs : Plugin.FS) :
    step key usable s (.register fs (some [])) = step key usable s (.register fs none) := rfl

/-- A concrete program: a directory with one module file is added, the module is loaded and listed. -/
def exFs : Plugin.FS where
  w := { readable := fun p => p = c!"/p", isDir := fun p => p = c!"/p" }
  entries := fun d => if d = c!"/p" then some [c!".", c!"..", c!"ocv.so", c!"readme"] else none
  lib := fun p => if p = c!"/p/ocv.so" then some ⟨some (fun _ => ([⟨c!"image_io:ocv", 7⟩], 0))⟩ else none

example : (run (fun _ => 0) (fun n => n + 8) ⟨Plugin.construct [] none, 0⟩ [.names, .addPath (some (c!"/p")), .register exFs none, .names]).map (fun r => (r.1.owed, r.2))
    = some (0, [.names [], .none, .none, .names [c!"ocv"]]) := by decide +kernel

example : (∀ op ∈ ([Op.names, .addPath (some (c!"/p")), .register exFs none, .names] : List Op), Clean op) ∧ PlainFs exFs ∧ NamesClean (Plugin.construct [] none) := by
  refine ⟨?_, ?_, ?_⟩
  · intro op h
    simp only [List.mem_cons, List.not_mem_nil, or_false] at h
    rcases h with rfl | rfl | rfl | rfl <;> first | trivial | (unfold Clean; decide)
  · intro d es h e he
    unfold exFs at h
    dsimp only at h
    split at h
    · cases h
      have : ∀ e ∈ [c!".", c!"..", c!"ocv.so", c!"readme"], nul ∉ e ∧ '/' ∉ e := by decide
      exact this e he
    · cases h
  · unfold NamesClean; decide

end Vital.Py.Apm
