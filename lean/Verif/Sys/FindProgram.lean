import Verif.Sys.PathsProps
/-
  Model of SystemTools::FindProgram, FindLibrary, FindDirectory, SplitProgramFromArgs and IsSubDirectory (vital/kwiversys/SystemTools.cxx, POSIX branch);
  properties C176 (finding programs, libraries and directories), C177 (SplitProgramFromArgs) and C178 (IsSubDirectory).
-/
namespace Vital.Sys
open Vital

/-- `FileExists( p ) && !FileIsDirectory( p )` -/
def isFileHere (w : World) (p : Str) : Bool := fileExists w p && !fileIsDirectory w p

-- models: vital/kwiversys/SystemTools.cxx:3001-3062 (the name in each directory, and the first that is a file)
def firstFile (w : World) (cands : List Str) : Str :=
  match cands.find? (isFileHere w) with
  | some p => collapseFullPath w p
  | none => []

-- models: vital/kwiversys/SystemTools.cxx:2967-3064 (FindProgram; no extensions are tried on POSIX systems)
def findProgram (w : World) (name : Str) (userPaths : List Str) (noSystemPath : Bool) : Str :=
  if isFileHere w name then collapseFullPath w name
  else firstFile w (((if noSystemPath then [] else getPath w (c!"PATH")) ++ userPaths).map fun p => withSlash p ++ name)

-- models: vital/kwiversys/SystemTools.cxx:2955-2965 (FindProgram for a const char*)
def findProgramC (w : World) (name : Option Str) (userPaths : List Str) (noSystemPath : Bool) : Str :=
  match name with
  | none => []
  | some [] => []
  | some (c :: n) => findProgram w (c :: n) userPaths noSystemPath

-- models: vital/kwiversys/SystemTools.cxx:3070-3088 (FindProgram for several names)
def findPrograms (w : World) : List Str → List Str → Bool → Str
  | [], _, _ => []
  | n :: names, path, nosys =>
    if findProgram w n path nosys ≠ [] then findProgram w n path nosys else findPrograms w names path nosys

/-- The endings tried for a library, in order. -/
def libSuffixes : List Str := [c!".so", c!".a", c!".sl", c!".dylib", c!".dll"]

-- models: vital/kwiversys/SystemTools.cxx:3095-3206 (FindLibrary; neither Windows nor macOS)
def findLibrary (w : World) (name : Str) (userPaths : List Str) : Str :=
  if isFileHere w name then collapseFullPath w name
  else firstFile w ((getPath w (c!"PATH") ++ userPaths).flatMap fun p => libSuffixes.map fun e => withSlash p ++ (c!"lib") ++ name ++ e)

-- models: vital/kwiversys/SystemTools.cxx:2936-2948 (FindDirectory)
def findDirectory (w : World) (name : Str) (userPaths : List Str) (noSystemPath : Bool) : Str :=
  let tryPath := findName w name userPaths noSystemPath
  if tryPath ≠ [] ∧ fileIsDirectory w tryPath = true then collapseFullPath w tryPath else []

/-- Specification: a readable thing that is not a directory. -/
def File (w : World) (p : Str) : Prop := p ≠ [] ∧ w.readable p = true ∧ w.isDir p = false

theorem isFileHere_iff {w : World} {p : Str} : isFileHere w p = true ↔ File w p := by
  unfold isFileHere fileExists fileIsDirectory File
  by_cases h : p = []
  · simp [h]
  · simp [h]

/-- Specification: `r` is the full path of the first of the candidates that is a file, or empty without one. -/
def FirstOf (w : World) (cands : List Str) (r : Str) : Prop :=
  (∃ pre p post, cands = pre ++ p :: post ∧ File w p ∧ (∀ q ∈ pre, ¬ File w q) ∧ r = collapseFullPath w p) ∨ ((∀ q ∈ cands, ¬ File w q) ∧ r = [])

theorem firstFile_spec (w : World) (cands : List Str) : FirstOf w cands (firstFile w cands) := by
  unfold firstFile
  cases h : cands.find? (isFileHere w) with
  | none =>
    right
    refine ⟨fun q hq hf => ?_, rfl⟩
    exact (List.find?_eq_none.1 h q hq) (isFileHere_iff.2 hf)
  | some p =>
    left
    obtain ⟨h1, pre, post, h2, h3⟩ := List.find?_eq_some_iff_append.1 h
    refine ⟨pre, p, post, h2, isFileHere_iff.1 h1, ?_, rfl⟩
    intro q hq hf
    have := h3 q hq
    rw [isFileHere_iff.2 hf] at this
    cases this

theorem firstOf_cons (w : World) (n : Str) (cands : List Str) (r : Str) :
    FirstOf w (n :: cands) r ↔ if isFileHere w n then r = collapseFullPath w n else FirstOf w cands r := by
  cases hn : isFileHere w n
  · have hf : ¬ File w n := fun h => by rw [isFileHere_iff.2 h] at hn; cases hn
    simp only [Bool.false_eq_true, if_false]
    constructor
    · rintro (⟨pre, p, post, h1, h2, h3, h4⟩ | ⟨h1, h2⟩)
      · cases pre with
        | nil => cases h1; exact absurd h2 hf
        | cons x pre =>
          cases h1
          exact .inl ⟨pre, p, post, rfl, h2, fun q hq => h3 q (List.mem_cons_of_mem _ hq), h4⟩
      · exact .inr ⟨fun q hq => h1 q (List.mem_cons_of_mem _ hq), h2⟩
    · rintro (⟨pre, p, post, h1, h2, h3, h4⟩ | ⟨h1, h2⟩)
      · refine .inl ⟨n :: pre, p, post, by rw [h1]; rfl, h2, ?_, h4⟩
        intro q hq
        rcases List.mem_cons.1 hq with rfl | hq
        · exact hf
        · exact h3 q hq
      · refine .inr ⟨?_, h2⟩
        intro q hq
        rcases List.mem_cons.1 hq with rfl | hq
        · exact hf
        · exact h1 q hq
  · have hf := isFileHere_iff.1 hn
    simp only [if_true]
    constructor
    · rintro (⟨pre, p, post, h1, h2, h3, h4⟩ | ⟨h1, h2⟩)
      · cases pre with
        | nil => cases h1; exact h4
        | cons x pre =>
          cases h1
          exact absurd hf (h3 n (by simp))
      · exact absurd hf (h1 n (by simp))
    · intro hr
      exact .inl ⟨[], n, cands, rfl, hf, by simp, hr⟩

/-- C176, what FindProgram and FindLibrary do: the first file among the name as it is, the name in the directories of PATH and the name in the directories of
the caller, in this order; for a library the name with `lib` in front and each of the endings. -/
theorem C176_find (w : World) (name : Str) (dirs : List Str) (nosys : Bool) :
    FirstOf w (name :: ((if nosys then [] else getPath w (c!"PATH")) ++ dirs).map (fun d => withSlash d ++ name)) (findProgram w name dirs nosys) ∧
    FirstOf w (name :: (getPath w (c!"PATH") ++ dirs).flatMap (fun d => [c!".so", c!".a", c!".sl", c!".dylib", c!".dll"].map
      fun e => withSlash d ++ (c!"lib") ++ name ++ e)) (findLibrary w name dirs) := by
  constructor
  · rw [firstOf_cons]
    unfold findProgram
    split
    · rfl
    · exact firstFile_spec _ _
  · rw [firstOf_cons]
    unfold findLibrary
    split
    · rfl
    · exact firstFile_spec _ _

/-- C176. A name that is nowhere a file gives an empty result; so do a null pointer and an empty name given as const char*; of several names the first one
with a result counts. -/
theorem C176_names (w : World) (names dirs : List Str) (nosys : Bool) :
    findProgramC w none dirs nosys = [] ∧ findProgramC w (some []) dirs nosys = [] ∧
    (∀ n, n ≠ [] → findProgramC w (some n) dirs nosys = findProgram w n dirs nosys) ∧
    ((∃ pre n post, names = pre ++ n :: post ∧ (∀ m ∈ pre, findProgram w m dirs nosys = []) ∧ findProgram w n dirs nosys ≠ [] ∧
        findPrograms w names dirs nosys = findProgram w n dirs nosys) ∨
      ((∀ m ∈ names, findProgram w m dirs nosys = []) ∧ findPrograms w names dirs nosys = [])) := by
  refine ⟨rfl, rfl, ?_, ?_⟩
  · intro n hn
    cases n with
    | nil => exact absurd rfl hn
    | cons => rfl
  · induction names with
    | nil => exact .inr ⟨by simp, rfl⟩
    | cons n names ih =>
      unfold findPrograms
      by_cases h : findProgram w n dirs nosys = []
      · rw [if_neg (fun hh => hh h)]
        rcases ih with ⟨pre, m, post, h1, h2, h3, h4⟩ | ⟨h1, h2⟩
        · refine .inl ⟨n :: pre, m, post, by rw [h1]; rfl, ?_, h3, h4⟩
          intro x hx
          rcases List.mem_cons.1 hx with rfl | hx
          · exact h
          · exact h2 x hx
        · refine .inr ⟨?_, h2⟩
          intro x hx
          rcases List.mem_cons.1 hx with rfl | hx
          · exact h
          · exact h1 x hx
      · rw [if_pos h]
        exact .inl ⟨[], n, names, rfl, by simp, h, rfl⟩

/-- C176. FindFile and FindDirectory look at the same thing, the first entry of that name: exactly one of them gives it. -/
theorem C176_directory (w : World) (name : Str) (dirs : List Str) (nosys : Bool) :
    (∀ p, findName w name dirs nosys = p → p ≠ [] → w.isDir p = true →
      findDirectory w name dirs nosys = collapseFullPath w p ∧ findFile w name dirs nosys = []) ∧
    (∀ p, findName w name dirs nosys = p → p ≠ [] → w.isDir p = false →
      findDirectory w name dirs nosys = [] ∧ findFile w name dirs nosys = collapseFullPath w p) ∧
    (findName w name dirs nosys = [] → findDirectory w name dirs nosys = [] ∧ findFile w name dirs nosys = []) := by
  refine ⟨?_, ?_, ?_⟩
  · rintro p rfl hp hd
    simp [findDirectory, findFile, fileIsDirectory, hp, hd]
  · rintro p rfl hp hd
    simp [findDirectory, findFile, fileIsDirectory, hp, hd]
  · intro h
    simp [findDirectory, findFile, h]

/-- C176 refuted (documented: "searches the given path and then the system search path"): a program in a directory of PATH hides the one in the directory the
caller gives; and an empty entry of PATH, which stands for the working directory, is taken for the root directory. -/
theorem C176_refuted :
    (∃ w : World, File w (c!"/mine/sort") ∧ findProgram w (c!"sort") [c!"/mine"] false = c!"/bin/sort") ∧
    (∃ w : World, w.cwd = some (c!"/work") ∧ w.env (c!"PATH") = some (c!":/bin") ∧ findProgram w (c!"x") [] false = c!"/x") := by
  refine ⟨⟨{ env := fun k => if k = c!"PATH" then some (c!"/bin") else none
             readable := fun p => p == c!"/bin/sort" || p == c!"/mine/sort" }, ⟨by decide, by decide, by decide⟩, by decide +kernel⟩,
    ⟨{ env := fun k => if k = c!"PATH" then some (c!":/bin") else none
       cwd := some (c!"/work")
       readable := fun p => p == c!"/x" }, by decide, by decide, by decide +kernel⟩⟩

/-! ### SplitProgramFromArgs -/

/-- `dir.rfind( ' ', pos )` -/
def rfindBlank (s : Str) : Nat → Option Nat
  | 0 => if s[0]? = some ' ' then some 0 else none
  | k + 1 => if s[k + 1]? = some ' ' then some (k + 1) else rfindBlank s k

-- models: vital/kwiversys/SystemTools.cxx:4580-4586 and 4596-4602 (dropping the blanks at the end; `none`: program[npos] is accessed when there is nothing else)
def dropBlanks (p : Str) : Option Str :=
  match p.reverse.dropWhile (· == ' ') with
  | [] => none
  | l => some l.reverse

inductive SplitRes | done (program args : Str) | undefined
  deriving DecidableEq

-- models: vital/kwiversys/SystemTools.cxx:4571-4606 (the loop; `none` of the fuel: still running). `spacePos--` of 0 gives npos, and rfind( ' ', npos ) searches
-- from the end again.
def splitProgLoop (w : World) (dir : Str) : Nat → Option Nat → Option SplitRes
  | 0, _ => none
  | _ + 1, none => some (.done [] [])
  | n + 1, some k =>
    if fileExists w (dir.take k) then
      some (match dropBlanks (dir.take k) with | some p => .done p (dir.drop k) | none => .undefined)
    else if findProgram w (dir.take k) [] false ≠ [] then
      some (match dropBlanks (findProgram w (dir.take k) [] false) with | some p => .done p (dir.drop k) | none => .undefined)
    else if k = 0 then splitProgLoop w dir n (rfindBlank dir dir.length)
    else splitProgLoop w dir n (rfindBlank dir (k - 1))

-- models: vital/kwiversys/SystemTools.cxx:4547-4610 (SplitProgramFromArgs; `none`: not finished after n rounds)
def splitProgram (w : World) (path : Str) (n : Nat) : Option SplitRes :=
  if fileExists w path then some (.done path [])
  else if findProgram w path [] false ≠ [] then some (.done (findProgram w path [] false) [])
  else splitProgLoop w path n (rfindBlank path path.length)

/-- Specification: the text names a program: something of this name exists, or FindProgram finds it. -/
def Names (w : World) (p : Str) : Prop := fileExists w p = true ∨ findProgram w p [] false ≠ []

theorem rfindBlank_some {s : Str} : ∀ {k j : Nat}, rfindBlank s k = some j → j ≤ k ∧ s[j]? = some ' ' ∧ ∀ i, j < i → i ≤ k → s[i]? ≠ some ' '
  | 0, j, h => by
    unfold rfindBlank at h
    split at h
    · rename_i h0; cases h; exact ⟨Nat.le_refl _, h0, fun i h1 h2 => by omega⟩
    · cases h
  | k + 1, j, h => by
    unfold rfindBlank at h
    split at h
    · rename_i h0; cases h; exact ⟨Nat.le_refl _, h0, fun i h1 h2 => by omega⟩
    · rename_i h0
      obtain ⟨h1, h2, h3⟩ := rfindBlank_some h
      refine ⟨by omega, h2, fun i hi1 hi2 => ?_⟩
      by_cases he : i = k + 1
      · subst he; exact h0
      · exact h3 i hi1 (by omega)

theorem rfindBlank_none {s : Str} : ∀ {k : Nat}, rfindBlank s k = none → ∀ i, i ≤ k → s[i]? ≠ some ' '
  | 0, h, i, hi => by
    unfold rfindBlank at h
    split at h
    · cases h
    · rename_i h0
      have : i = 0 := by omega
      subst this; exact h0
  | k + 1, h, i, hi => by
    unfold rfindBlank at h
    split at h
    · cases h
    · rename_i h0
      by_cases he : i = k + 1
      · subst he; exact h0
      · exact rfindBlank_none h i (by omega)

/-- The outcome for a cut at a blank. -/
def CutAt (w : World) (path : Str) (k : Nat) (r : SplitRes) : Prop :=
  path[k]? = some ' ' ∧ Names w (path.take k) ∧ (∀ j, k < j → path[j]? = some ' ' → ¬ Names w (path.take j)) ∧
    ∃ p, p = (if fileExists w (path.take k) then path.take k else findProgram w (path.take k) [] false) ∧
      ((∃ q b, p = q ++ List.replicate b ' ' ∧ q ≠ [] ∧ q.getLast? ≠ some ' ' ∧ r = .done q (path.drop k)) ∨ (p = List.replicate p.length ' ' ∧ r = .undefined))

theorem dropBlanks_spec (p : Str) :
    (∃ q b, p = q ++ List.replicate b ' ' ∧ q ≠ [] ∧ q.getLast? ≠ some ' ' ∧ dropBlanks p = some q) ∨ (p = List.replicate p.length ' ' ∧ dropBlanks p = none) := by
  have hall : ∀ l : Str, (∀ c ∈ l, (c == ' ') = true) → l = List.replicate l.length ' ' := by
    intro l hl
    rw [List.eq_replicate_iff]
    exact ⟨rfl, fun c hc => by simpa using hl c hc⟩
  have hsplit : p = (p.reverse.dropWhile (· == ' ')).reverse ++ (p.reverse.takeWhile (· == ' ')).reverse := by
    rw [← List.reverse_append, List.takeWhile_append_dropWhile, List.reverse_reverse]
  have htw : ∀ c ∈ p.reverse.takeWhile (· == ' '), (c == ' ') = true := by
    have := List.all_takeWhile (p := (· == ' ')) (l := p.reverse)
    rwa [List.all_eq_true] at this
  have hrep : (p.reverse.takeWhile (· == ' ')).reverse = List.replicate (p.reverse.takeWhile (· == ' ')).length ' ' := by
    have := hall _ htw
    rw [this]; simp
  cases hd : p.reverse.dropWhile (· == ' ') with
  | nil =>
    right
    rw [hd, hrep] at hsplit
    refine ⟨?_, by unfold dropBlanks; rw [hd]⟩
    have hl : p.length = (p.reverse.takeWhile (· == ' ')).length := by
      have := congrArg List.length hsplit; simpa using this
    rw [hl]; simpa using hsplit
  | cons c l =>
    left
    have hc : c ≠ ' ' := by
      have := dropWhile_head_false (· == ' ') p.reverse c (by rw [hd]; rfl)
      simpa using this
    rw [hd, hrep] at hsplit
    refine ⟨(c :: l).reverse, _, hsplit, by simp, by simpa using hc, ?_⟩
    unfold dropBlanks
    rw [hd]

theorem splitProgLoop_cut {w : World} {path : Str} {n k : Nat} (hk : path[k]? = some ' ') (hn : Names w (path.take k))
    (hmax : ∀ j, k < j → path[j]? = some ' ' → ¬ Names w (path.take j)) : ∃ r, splitProgLoop w path (n + 1) (some k) = some r ∧ CutAt w path k r := by
  unfold splitProgLoop
  by_cases h1 : fileExists w (path.take k) = true
  · rw [if_pos h1]
    refine ⟨_, rfl, hk, hn, hmax, path.take k, by rw [if_pos h1], ?_⟩
    rcases dropBlanks_spec (path.take k) with ⟨q, b, h2, h3, h4, h5⟩ | ⟨h2, h5⟩
    · exact .inl ⟨q, b, h2, h3, h4, by rw [h5]⟩
    · exact .inr ⟨h2, by rw [h5]⟩
  · rw [if_neg h1]
    have h2 : findProgram w (path.take k) [] false ≠ [] := by
      rcases hn with h | h
      · exact absurd h h1
      · exact h
    rw [if_pos h2]
    refine ⟨_, rfl, hk, hn, hmax, _, rfl, ?_⟩
    rw [if_neg h1]
    rcases dropBlanks_spec (findProgram w (path.take k) [] false) with ⟨q, b, h3, h4, h5, h6⟩ | ⟨h3, h6⟩
    · exact .inl ⟨q, b, h3, h4, h5, by rw [h6]⟩
    · exact .inr ⟨h3, by rw [h6]⟩

theorem splitProgLoop_skip {w : World} {path : Str} {n k : Nat} (hn : ¬ Names w (path.take k)) (hk : k ≠ 0) :
    splitProgLoop w path (n + 1) (some k) = splitProgLoop w path n (rfindBlank path (k - 1)) := by
  rw [splitProgLoop, if_neg (fun h => hn (.inl h)), if_neg (fun h => hn (.inr h)), if_neg hk]

/-- The loop from a blank on, when all later blanks have been tried. -/
theorem splitProgLoop_spec {w : World} {path : Str} (h0 : path.head? ≠ some ' ') : ∀ (k n : Nat), k < n →
    (∀ j, k < j → path[j]? = some ' ' → ¬ Names w (path.take j)) →
    ∃ r, splitProgLoop w path (n + 1) (rfindBlank path k) = some r ∧
      ((∃ i, CutAt w path i r) ∨ ((∀ i, path[i]? = some ' ' → ¬ Names w (path.take i)) ∧ r = .done [] [])) := by
  intro k
  induction k using Nat.strongRecOn with
  | _ k ih =>
    intro n hkn hlater
    match hr : rfindBlank path k with
    | none =>
      refine ⟨.done [] [], rfl, .inr ⟨?_, rfl⟩⟩
      intro i hi
      by_cases hik : i ≤ k
      · exact absurd hi (rfindBlank_none hr i hik)
      · exact hlater i (by omega) hi
    | some j =>
      obtain ⟨h1, h2, h3⟩ := rfindBlank_some hr
      have hlater' : ∀ i, j < i → path[i]? = some ' ' → ¬ Names w (path.take i) := by
        intro i hi hp
        by_cases hik : i ≤ k
        · exact absurd hp (h3 i hi hik)
        · exact hlater i (by omega) hp
      have hj0 : j ≠ 0 := by
        rintro rfl
        exact h0 (by rw [List.head?_eq_getElem?]; exact h2)
      by_cases hn : Names w (path.take j)
      · obtain ⟨r, e, hc⟩ := splitProgLoop_cut (n := n) h2 hn hlater'
        exact ⟨r, e, .inl ⟨j, hc⟩⟩
      · rw [splitProgLoop_skip hn hj0]
        obtain ⟨m, rfl⟩ : ∃ m, n = m + 1 := ⟨n - 1, by omega⟩
        apply ih (j - 1) (by omega) m (by omega)
        intro i hi hp
        by_cases hij : i = j
        · subst hij; exact hn
        · exact hlater' i (by omega) hp

/-- C177, proved part: for a command line that does not begin with a blank, SplitProgramFromArgs returns; the program is the whole line if that names one,
otherwise the longest beginning before a blank that names one (as given or as found, without the blanks at its end), with everything from that blank on as
arguments; without such a beginning both are empty. -/
theorem C177_split_partial (w : World) (path : Str) (h0 : path.head? ≠ some ' ') :
    (fileExists w path = true → splitProgram w path 0 = some (.done path [])) ∧
    (fileExists w path = false → findProgram w path [] false ≠ [] → splitProgram w path 0 = some (.done (findProgram w path [] false) [])) ∧
    (¬ Names w path → ∃ r, splitProgram w path (path.length + 2) = some r ∧
      ((∃ k, CutAt w path k r) ∨ ((∀ k, path[k]? = some ' ' → ¬ Names w (path.take k)) ∧ r = .done [] []))) := by
  refine ⟨?_, ?_, ?_⟩
  · intro h; unfold splitProgram; rw [if_pos h]
  · intro h1 h2; unfold splitProgram; rw [if_neg (by simp [h1]), if_pos h2]
  · intro hn
    unfold splitProgram
    rw [if_neg (fun h => hn (.inl h)), if_neg (fun h => hn (.inr h))]
    apply splitProgLoop_spec h0 path.length (path.length + 1) (by omega)
    intro j hj hp
    rw [List.getElem?_eq_none (by omega)] at hp
    cases hp

theorem names_nil (w : World) : fileExists w [] = false := rfl

/-- C177 refuted: for a line that begins with a blank and of which no beginning before a blank names a program, the function does not return. -/
theorem C177_endless_refuted (w : World) (path : Str) (h0 : path.head? = some ' ') (hn : ¬ Names w path)
    (hno : ∀ k, path[k]? = some ' ' → ¬ Names w (path.take k)) : ∀ n, splitProgram w path n = none := by
  have hb0 : path[0]? = some ' ' := by rw [← List.head?_eq_getElem?]; exact h0
  have hsome : ∀ k, ∃ j, rfindBlank path k = some j ∧ path[j]? = some ' ' := by
    intro k
    match hr : rfindBlank path k with
    | none => exact absurd hb0 (rfindBlank_none hr 0 (Nat.zero_le _))
    | some j => exact ⟨j, rfl, (rfindBlank_some hr).2.1⟩
  have hloop : ∀ n k, path[k]? = some ' ' → splitProgLoop w path n (some k) = none := by
    intro n
    induction n with
    | zero => intro k _; rfl
    | succ n ih =>
      intro k hk
      by_cases h : k = 0
      · have hnn := hno k hk
        rw [splitProgLoop, if_neg (fun h => hnn (.inl h)), if_neg (fun h => hnn (.inr h)), if_pos h]
        obtain ⟨j, h1, h2⟩ := hsome path.length
        rw [h1]; exact ih j h2
      · rw [splitProgLoop_skip (hno k hk) h]
        obtain ⟨j, h1, h2⟩ := hsome (k - 1)
        rw [h1]; exact ih j h2
  intro n
  unfold splitProgram
  rw [if_neg (fun h => hn (.inl h)), if_neg (fun h => hn (.inr h))]
  obtain ⟨j, h1, h2⟩ := hsome path.length
  rw [h1]; exact hloop n j h2

/-- Concrete cases: an ordinary one; one where the program given back does not exist (a file whose name ends with a blank); one that never returns; and one
that reads outside the text (a file whose name is a blank). -/
theorem C177_refuted :
    (∃ w : World, ∀ n, splitProgram w (c!" ls -l") n = none) ∧
    (∃ w : World, splitProgram w (c!"/a  b") 6 = some (.done (c!"/a") (c!" b")) ∧ fileExists w (c!"/a") = false) ∧
    (∃ w : World, splitProgram w (c!"  b") 5 = some .undefined) := by
  refine ⟨⟨{}, ?_⟩, ⟨{ readable := fun p => p == c!"/a " }, by decide +kernel, by decide⟩, ⟨{ readable := fun p => p == c!" " }, by decide +kernel⟩⟩
  have hnone : ∀ p, ¬ Names {} p := by
    intro p
    have hf : ∀ q, fileExists ({} : World) q = false := by intro q; simp [fileExists]
    rintro (h | h)
    · rw [hf] at h; cases h
    · apply h
      unfold findProgram isFileHere
      rw [hf]
      unfold getPath
      simp [firstFile]
  exact C177_endless_refuted _ _ rfl (hnone _) (fun _ _ => hnone _)

example : ∃ w : World, splitProgram w (c!"/opt/my prog -x y") 19 = some (.done (c!"/opt/my prog") (c!" -x y")) :=
  ⟨{ readable := fun p => p == c!"/opt/my prog" }, by decide +kernel⟩

/-! ### IsSubDirectory -/

-- models: vital/kwiversys/SystemTools.cxx:4859-4876 (IsSubDirectory) and 4069-4083 (ComparePath)
def isSubDirectory (w : World) (cSubdir cDir : Str) : Bool :=
  if cDir = [] then false
  else
    let subdir := convertToUnixSlashes w cSubdir
    let dir := convertToUnixSlashes w cDir
    if dir.length < subdir.length ∧ subdir[dir.length]? = some '/' then subdir.take dir.length == dir else false

/-- C178. With names in normal form: true just for a name that continues the directory's with a slash. -/
theorem C178_exact (w : World) (s d : Str) (hs : SlashNormal s) (hd : SlashNormal d) (hne : d ≠ []) :
    isSubDirectory w s d = true ↔ ∃ r, s = d ++ '/' :: r := by
  unfold isSubDirectory
  rw [if_neg hne, convert_normal w hs, convert_normal w hd]
  simp only
  constructor
  · intro h
    split at h
    · rename_i hc
      rw [beq_iff_eq] at h
      refine ⟨s.drop (d.length + 1), ?_⟩
      have e1 := (List.take_append_drop d.length s).symm
      rw [h] at e1
      have hl : d.length < s.length := hc.1
      rw [List.drop_eq_getElem_cons hl] at e1
      have : s[d.length] = '/' := by
        have := hc.2
        rw [List.getElem?_eq_getElem hl] at this
        simpa using this
      rw [this] at e1
      exact e1
    · cases h
  · rintro ⟨r, rfl⟩
    rw [if_pos ⟨by simp, by simp⟩]
    simp

/-- C178, proved part: with names in normal form (so not for the root directory): true just when the components of the directory are the first ones of the name,
and there are more. -/
theorem C178_components_partial (w : World) (s d : Str) (hs : SlashNormal s) (hd : SlashNormal d) (hne : d ≠ []) :
    isSubDirectory w s d = true ↔ ∃ names, names ≠ [] ∧ splitOn s = splitOn d ++ names := by
  rw [C178_exact w s d hs hd hne]
  constructor
  · rintro ⟨r, rfl⟩
    exact ⟨splitOn r, splitOn_ne_nil r, splitOn_append_any d r⟩
  · rintro ⟨names, hn, he⟩
    refine ⟨slashJoin names, ?_⟩
    have hj : ∀ (l m : List Str), l ≠ [] → m ≠ [] → slashJoin (l ++ m) = slashJoin l ++ '/' :: slashJoin m := by
      intro l
      induction l with
      | nil => intro m h _; exact absurd rfl h
      | cons a l ih =>
        intro m _ hm
        cases m with
        | nil => exact absurd rfl hm
        | cons b m => simp [slashJoin]
    rw [← slashJoin_splitOn hs.noBack, he, hj _ _ (splitOn_ne_nil d) hn, slashJoin_splitOn hd.noBack]

/-- C178 refuted: nothing is below the root directory, and a name that leads out again counts as below. -/
theorem C178_refuted (w : World) : isSubDirectory w (c!"/a") (c!"/") = false ∧ isSubDirectory w (c!"/a/../b") (c!"/a") = true := ⟨rfl, rfl⟩

example : SlashNormal (c!"/a/b") ∧ isSubDirectory {} (c!"/a/b") (c!"/a") = true := by
  refine ⟨⟨by decide, ?_, by decide, by decide⟩, rfl⟩
  intro a b e
  have := (adjacentSlashes_iff (c!"/a/b")).2 ⟨a, b, e⟩
  revert this; decide

end Vital.Sys
