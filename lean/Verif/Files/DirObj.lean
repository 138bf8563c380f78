import Verif.CApi.Utils
/-
  The class Directory (vital/kwiversys/Directory.cxx), POSIX branch; property C270.

  A directory stream gives names and then ends, either because there are no more or because reading failed: `readdir` returns a null pointer in both
  cases.  The file system may change between calls, so each call has its own.
-/
namespace Vital.Files.DirObj
open Vital Vital.CApi

/-- What reading a directory gives. -/
structure Stream where
  names : List Str
  /-- the names that are there but were not read, because of an error -/
  lost : List Str

/-- `opendir`: the stream of a directory, if it can be opened. -/
abbrev FS := Str → Option Stream

-- models: vital/kwiversys/Directory.cxx:34-42 (DirectoryInternals)
structure Dir where
  files : List Str
  path : Str

-- models: vital/kwiversys/Directory.cxx:45-48 (Directory)
def Dir.new : Dir := ⟨[], []⟩

-- models: vital/kwiversys/Directory.cxx:79-83 (Clear)
def Dir.clear (_ : Dir) : Dir := ⟨[], []⟩

/-- The loop over `readdir`: it ends at the first null pointer. -/
-- models: vital/kwiversys/Directory.cxx:231-234
def readAll (acc : List Str) : List Str → List Str
  | [] => acc
  | n :: rest => readAll (acc ++ [n]) rest

-- models: vital/kwiversys/Directory.cxx:220-238 (Load); the name is passed to opendir as a C string
def Dir.load (d : Dir) (fs : FS) (name : Str) : Dir × Bool :=
  match fs (cstr name) with
  | none => (d.clear, false)
  | some st => (⟨readAll d.clear.files st.names, name⟩, true)

-- models: vital/kwiversys/Directory.cxx:57-60 (GetNumberOfFiles)
def Dir.count (d : Dir) : Nat := d.files.length

-- models: vital/kwiversys/Directory.cxx:63-70 (GetFile); `none` is a null pointer, the name comes back as a C string
def Dir.file (d : Dir) (i : Nat) : Option Str := if d.files.length ≤ i then none else (d.files[i]?).map cstr

-- models: vital/kwiversys/Directory.cxx:73-76 (GetPath)
def Dir.getPath (d : Dir) : Str := cstr d.path

-- models: vital/kwiversys/Directory.cxx:240-256 (GetNumberOfFilesInDirectory)
def countLoop (n : Nat) : List Str → Nat
  | [] => n
  | _ :: rest => countLoop (n + 1) rest

def numberOfFilesInDirectory (fs : FS) (name : Str) : Nat :=
  match fs (cstr name) with
  | none => 0
  | some st => countLoop 0 st.names

inductive Op where
  | load (fs : FS) (name : Str)
  | clear

def step (d : Dir) : Op → Dir
  | .load fs name => (d.load fs name).1
  | .clear => d.clear

def run (ops : List Op) : Dir := ops.foldl step Dir.new

/-! ### Specification -/

/-- The names in the directory now, all of them; none if it cannot be opened. -/
def contents (fs : FS) (name : Str) : Option (List Str) := (fs name).map fun st => st.names ++ st.lost

/-- Names in a directory have no NUL. -/
def FS.Clean (fs : FS) : Prop := ∀ n st, fs n = some st → ∀ x ∈ st.names, nul ∉ x

/-- No error while reading. -/
def FS.Whole (fs : FS) : Prop := ∀ n st, fs n = some st → st.lost = []

/-- What a caller sees: the number of files, each file by index, and the path. -/
def Shows (d : Dir) (names : List Str) (path : Str) : Prop :=
  d.count = names.length ∧ (∀ i, d.file i = names[i]?) ∧ d.getPath = path

/-- Full property C270: after any history that ends with Load, the result says whether the directory can be opened, and then the object shows exactly its
    contents and its path, otherwise nothing. -/
def C270_statement : Prop := ∀ (ops : List Op) (fs : FS) (name : Str), fs.Clean → nul ∉ name →
  match contents fs name with
  | some l => ((run ops).load fs name).2 = true ∧ Shows ((run ops).load fs name).1 l name ∧ numberOfFilesInDirectory fs name = l.length
  | none => ((run ops).load fs name).2 = false ∧ Shows ((run ops).load fs name).1 [] [] ∧ numberOfFilesInDirectory fs name = 0

theorem readAll_eq : ∀ (l acc : List Str), readAll acc l = acc ++ l := by
  intro l
  induction l with
  | nil => intro acc; simp [readAll]
  | cons a l ih => intro acc; rw [readAll, ih]; simp

theorem countLoop_eq : ∀ (l : List Str) (n : Nat), countLoop n l = n + l.length := by
  intro l
  induction l with
  | nil => intro n; rfl
  | cons a l ih => intro n; rw [countLoop, ih]; simp; omega

theorem shows_of (names : List Str) (path : Str) (hn : ∀ x ∈ names, nul ∉ x) (hp : nul ∉ path) : Shows ⟨names, path⟩ names path := by
  refine ⟨rfl, ?_, cstr_self hp⟩
  intro i
  unfold Dir.file
  simp only
  split
  · rename_i h; exact (List.getElem?_eq_none h).symm
  · cases hi : names[i]? with
    | none => rfl
    | some x => simp [cstr_self (hn x (List.mem_of_getElem? hi))]

/-- What holds: everything, if reading the directory meets no error.  Missing: an error while reading. -/
theorem C270_directory_partial (ops : List Op) (fs : FS) (name : Str) (hc : fs.Clean) (hw : fs.Whole) (hn : nul ∉ name) :
    match contents fs name with
    | some l => ((run ops).load fs name).2 = true ∧ Shows ((run ops).load fs name).1 l name ∧ numberOfFilesInDirectory fs name = l.length
    | none => ((run ops).load fs name).2 = false ∧ Shows ((run ops).load fs name).1 [] [] ∧ numberOfFilesInDirectory fs name = 0 := by
  unfold contents numberOfFilesInDirectory Dir.load
  rw [cstr_self hn]
  cases h : fs name with
  | none => exact ⟨rfl, shows_of [] [] (by simp) (by simp), rfl⟩
  | some st =>
    have hl := hw name st h
    have hx := hc name st h
    simp only [Option.map_some, hl, List.append_nil]
    refine ⟨trivial, ?_, by rw [countLoop_eq]; simp⟩
    rw [readAll_eq]
    exact shows_of _ _ hx hn

/-- With an error while reading, Load still says true and the object shows just the names read before it: they cannot be told from the whole. -/
theorem C270_read_error (ops : List Op) (fs : FS) (name : Str) (hc : fs.Clean) (hn : nul ∉ name) {st : Stream} (h : fs name = some st) :
    ((run ops).load fs name).2 = true ∧ Shows ((run ops).load fs name).1 st.names name ∧ numberOfFilesInDirectory fs name = st.names.length := by
  unfold numberOfFilesInDirectory Dir.load
  rw [cstr_self hn, h]
  refine ⟨rfl, ?_, by show countLoop 0 st.names = _; rw [countLoop_eq]; simp⟩
  show Shows ⟨readAll [] st.names, name⟩ _ _
  rw [readAll_eq]
  exact shows_of _ _ (hc name st h) hn

/-- C270 is false of the code: an error while reading is taken for the end of the directory. -/
theorem C270_refuted : ¬ C270_statement := by
  intro h
  have := h [] (fun n => if n = c!"d" then some ⟨[c!"."], [c!"a"]⟩ else none) (c!"d") (by
    intro n st e x hx
    dsimp only at e
    split at e
    · cases e; rw [List.mem_singleton.1 hx]; decide
    · cases e) (by decide)
  have e : contents (fun n => if n = c!"d" then some ⟨[c!"."], [c!"a"]⟩ else none) (c!"d") = some [c!".", c!"a"] := by decide
  rw [e] at this
  obtain ⟨_, _, h3⟩ := this
  revert h3
  decide

/-- After any history that does not end with a successful Load, the object shows nothing. -/
theorem C270_empty (ops : List Op) (fs : FS) (name : Str) : Shows (run []) [] [] ∧ Shows (run (ops ++ [.clear])) [] [] ∧
    (fs (cstr name) = none → Shows (run (ops ++ [.load fs name])) [] []) := by
  have e : Shows ⟨[], []⟩ [] [] := shows_of [] [] (by simp) (by simp)
  refine ⟨e, ?_, fun h => ?_⟩
  · unfold run; rw [List.foldl_append]; exact e
  · unfold run; rw [List.foldl_append]
    simp only [List.foldl_cons, List.foldl_nil, step, Dir.load, h]
    exact e

/-- GetFile gives a null pointer exactly from the number of files on. -/
theorem C270_index (ops : List Op) (i : Nat) : (run ops).file i = none ↔ (run ops).count ≤ i := by
  generalize run ops = d
  unfold Dir.file Dir.count
  split
  · rename_i h; simp [h]
  · rename_i h
    have hi : i < d.files.length := by omega
    simp [List.getElem?_eq_getElem hi]; omega

example : let fs : FS := fun n => if n = c!"d" then some ⟨[c!".", c!"..", c!"a"], []⟩ else none
    ((run [.load fs (c!"d"), .load fs (c!"e"), .load fs (c!"d")]).count, (run [.load fs (c!"d")]).file 2, (run [.load fs (c!"d")]).file 3, (run [.load fs (c!"d"), .load fs (c!"e")]).count) =
      (3, some (c!"a"), none, 0) := by decide +kernel
example : FS.Clean (fun n => if n = c!"d" then some ⟨[c!".", c!"a"], []⟩ else none) ∧ FS.Whole (fun n => if n = c!"d" then some ⟨[c!".", c!"a"], []⟩ else none) := by
  constructor
  · intro n st e
    dsimp only at e
    split at e
    · cases e; decide
    · cases e
  · intro n st e
    dsimp only at e
    split at e
    · cases e; rfl
    · cases e

end Vital.Files.DirObj
