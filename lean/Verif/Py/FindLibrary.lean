import Verif.Sys.LocateProps2
/-
  vital/bindings/python/vital/util/find_vital_library.py.in: how the Python package finds the C library; properties C243 - C246.
-/
namespace Vital.Py.Lib
open Vital Vital.Sys Vital.Sys.Loc

/-! ### os.path -/

-- models: vital/bindings/python/vital/util/find_vital_library.py.in:86, 90 (os.path.join of the POSIX module)
def osJoin (a b : Str) : Str :=
  if b.head? = some '/' then b
  else if a = [] ∨ a.getLast? = some '/' then a ++ b
  else a ++ '/' :: b

-- models: vital/bindings/python/vital/util/find_vital_library.py.in:97, 123 (os.path.dirname of the POSIX module)
def dirname (p : Str) : Str :=
  let head := (p.reverse.dropWhile (fun c => c != '/')).reverse
  if head.all (fun c => c == '/') = true then head else (head.reverse.dropWhile (fun c => c == '/')).reverse

/-! ### _search_up_directory -/

/-- The directories that exist, and their entries in the order the system gives them; `none` if they may not be read. -/
structure Dirs where
  isdir : Str → Bool
  listdir : Str → Option (List Str)

inductive PyErr where
  | osError | keyError | runtimeError
deriving DecidableEq

/-- The value or the exception of a Python call. -/
inductive Res (α : Type) where
  | ok (x : α)
  | raised (e : PyErr)
deriving DecidableEq

-- models: vital/bindings/python/vital/util/find_vital_library.py.in:53-65 (_system_library_dirs, not Windows)
def libraryDirs : List Str := [c!"lib64", c!"lib"]

-- models: vital/bindings/python/vital/util/find_vital_library.py.in:84-92 (the loop over the library directories): what is found, and `hit`
def lookIn (fs : Dirs) (isLib : Str → Bool) (d : Str) : List Str → Bool → Res (Option Str × Bool)
  | [], hit => .ok (none, hit)
  | l :: ls, hit =>
    if fs.isdir (osJoin d l) = true then
      match fs.listdir (osJoin d l) with
      | none => .raised .osError
      | some files => match files.find? isLib with
        | some f => .ok (some (osJoin (osJoin d l) f), true)
        | none => lookIn fs isLib d ls true
    else lookIn fs isLib d ls hit

-- models: vital/bindings/python/vital/util/find_vital_library.py.in:68-98 (_search_up_directory); the rounds are bounded by the length of the path
def searchLoop (fs : Dirs) (isLib : Str → Bool) : Nat → Option Str → Str → Res (Option Str)
  | 0, _, _ => .ok none
  | n + 1, prev, d =>
    if prev = some d then .ok none
    else match lookIn fs isLib d libraryDirs false with
      | .raised e => .raised e
      | .ok (some f, _) => .ok (some f)
      | .ok (none, hit) => if hit = true then .ok none else searchLoop fs isLib n (some d) (dirname d)

def searchUp (fs : Dirs) (isLib : Str → Bool) (d : Str) : Res (Option Str) := searchLoop fs isLib (d.length + 2) none d

/-! ### The names -/

-- models: vital/bindings/python/vital/util/find_vital_library.py.in:47-48, 152-153 (the regular expression after the optional "lib"; `.` is any
-- character but a newline, and `.*` at the end matches whatever follows)
def restMatches (name s : Str) : Bool :=
  name.isPrefixOf s && (match s.drop name.length with
    | [] => false
    | c :: t => c != '\n' && ((c!"so").isPrefixOf t || (c!"dylib").isPrefixOf t || (c!"dll").isPrefixOf t))

-- models: vital/bindings/python/vital/util/find_vital_library.py.in:47-48 (`re.match` with __LIBRARY_NAME_RE__, names without special characters)
def isLibrary (name s : Str) : Bool := ((c!"lib").isPrefixOf s && restMatches name (s.drop 3)) || restMatches name s

/-! ### _find_vital_library_path -/

-- models: vital/bindings/python/vital/util/find_vital_library.py.in:125 (str.split(':'))
def splitColon : Str → List Str
  | [] => [[]]
  | c :: s => if c = ':' then [] :: splitColon s
    else match splitColon s with
      | [] => [[c]]
      | x :: l => (c :: x) :: l

-- models: vital/bindings/python/vital/util/find_vital_library.py.in:129-133 (the loop over the directories)
def firstHit (fs : Dirs) (isLib : Str → Bool) : List Str → Res (Option Str)
  | [] => .ok none
  | d :: ds => match searchUp fs isLib d with
    | .raised e => .raised e
    | .ok (some f) => .ok (some f)
    | .ok none => firstHit fs isLib ds

-- models: vital/bindings/python/vital/util/find_vital_library.py.in:110-137 (_find_vital_library_path): `here` is the absolute path of the
-- file, `env` the value of LD_LIBRARY_PATH; the result and the new cache (empty: None)
def findPath (fs : Dirs) (here : Str) (env : Option Str) (build : Str) (cache : Option Str) : Res Str × Option Str :=
  match cache with
  | some c => (.ok c, cache)
  | none => match env with
    | none => (.raised .keyError, none)
    | some e =>
      match firstHit fs (isLibrary (c!"vital_c")) ((if build ≠ [] then [build] else []) ++ dirname here :: splitColon e) with
      | .raised err => (.raised err, none)
      | .ok (some f) => (.ok f, some f)
      | .ok none => (.raised .runtimeError, none)

/-! ### Specification -/

/-- A file name. -/
def Plain (x : Str) : Prop := x ≠ [] ∧ '/' ∉ x

/-- The directory and the directories above it, up to the root. -/
def upwards : List Str → List (List Str)
  | [] => [[]]
  | x :: l => (upwards l).map (x :: ·) ++ [[]]

/-- The libraries below a directory, in the order of the documentation. -/
def librariesAt (fs : Dirs) (isLib : Str → Bool) (abs : Bool) (ns : List Str) : List Str :=
  [c!"lib64", c!"lib"].flatMap (fun l => if fs.isdir (pathOf abs (ns ++ [l])) = true then
    (((fs.listdir (pathOf abs (ns ++ [l]))).getD []).filter isLib).map (fun f => pathOf abs (ns ++ [l, f])) else [])

/-- Every directory can be read, and file names are file names. -/
structure Readable (fs : Dirs) : Prop where
  list : ∀ d, fs.isdir d = true → ∃ l, fs.listdir d = some l ∧ ∀ f ∈ l, Plain f

/-- Full property C243, as the documentation says: the first match in the directory and each directory above it until the root. -/
def C243_statement : Prop := ∀ (fs : Dirs) (isLib : Str → Bool) (abs : Bool) (ns : List Str), Readable fs → (∀ x ∈ ns, Plain x) →
  searchUp fs isLib (pathOf abs ns) = .ok ((upwards ns).flatMap (librariesAt fs isLib abs)).head?

/-- The names of a shared library: [lib]name.so, .dylib or .dll, and possibly a version after another dot. -/
def LibraryName (name s : Str) : Prop := ∃ pre ext suf, (pre = [] ∨ pre = (c!"lib")) ∧ (ext = (c!"so") ∨ ext = (c!"dylib") ∨ ext = (c!"dll")) ∧
  (suf = [] ∨ suf.head? = some '.') ∧ s = pre ++ name ++ ['.'] ++ ext ++ suf

/-- Full property C244: exactly the library's names are taken for the library. -/
def C244_statement : Prop := ∀ s : Str, isLibrary (c!"vital_c") s = true ↔ LibraryName (c!"vital_c") s

/-- The parts of a path variable. -/
def Parts (e : Str) (ds : List Str) : Prop := (∀ d ∈ ds, ':' ∉ d) ∧ ∃ d0 l, ds = d0 :: l ∧ e = d0 ++ (l.map (fun d => ':' :: d)).flatten

/-- `f` is what a search from each of the directories in turn gives first. -/
def First (fs : Dirs) (isLib : Str → Bool) (ds : List Str) : Res (Option Str) → Prop
  | .ok (some f) => ∃ a d b, ds = a ++ d :: b ∧ searchUp fs isLib d = .ok (some f) ∧ ∀ x ∈ a, searchUp fs isLib x = .ok none
  | .ok none => ∀ x ∈ ds, searchUp fs isLib x = .ok none
  | .raised e => ∃ a d b, ds = a ++ d :: b ∧ searchUp fs isLib d = .raised e ∧ ∀ x ∈ a, searchUp fs isLib x = .ok none

/-- Full property C245: whatever the environment is, the build directory, the directory of the file and the directories of LD_LIBRARY_PATH are
    searched in this order, and RuntimeError tells exactly that there is none. -/
def C245_statement : Prop := ∀ (fs : Dirs) (here : Str) (env : Option Str) (build : Str), ∃ ds r,
  (env = none → ds = []) ∧ (∀ e, env = some e → Parts e ds) ∧
  First fs (isLibrary (c!"vital_c")) ((if build ≠ [] then [build] else []) ++ dirname here :: ds) r ∧
  (findPath fs here env build none).1 = (match r with
    | .ok (some f) => .ok f
    | .ok none => .raised .runtimeError
    | .raised e => .raised e)

/-! ### C243 -/

theorem plain_last {x : Str} (h : Plain x) : x.getLast? ≠ some '/' := fun e => h.2 (List.mem_of_getLast? e)

theorem plain_head {x : Str} (h : Plain x) : x.head? ≠ some '/' := fun e => h.2 (List.mem_of_head? e)

theorem osJoin_path (abs : Bool) {ns : List Str} {x : Str} (hx : Plain x) (h : ∀ y ∈ ns, Plain y) :
    osJoin (pathOf abs ns) x = pathOf abs (ns ++ [x]) := by
  unfold osJoin
  rw [if_neg (plain_head hx)]
  by_cases hne : ns = []
  · subst hne
    cases abs <;> simp [pathOf, slashJoin]
  · obtain ⟨ns', y, rfl⟩ : ∃ a y, ns = a ++ [y] := ⟨ns.dropLast, ns.getLast hne, (List.dropLast_concat_getLast hne).symm⟩
    have hy := h y (by simp)
    have hlast : (pathOf abs (ns' ++ [y])).getLast? = y.getLast? := by
      by_cases hn : ns' = []
      · subst hn
        cases abs <;> simp [pathOf, slashJoin]
        cases hl : y.getLast? with
        | none => exact absurd (List.getLast?_eq_none_iff.1 hl) hy.1
        | some c => rw [List.getLast?_cons, hl]; rfl
      · rw [path_concat abs ns' y hn]
        rw [List.getLast?_append]
        cases hl : y.getLast? with
        | none => exact absurd (List.getLast?_eq_none_iff.1 hl) hy.1
        | some c =>
          rw [List.getLast?_cons, hl]; rfl
    have hne2 : pathOf abs (ns' ++ [y]) ≠ [] := by
      intro e
      rw [e] at hlast
      exact hy.1 (List.getLast?_eq_none_iff.1 hlast.symm)
    rw [if_neg (by rw [hlast]; exact fun h => h.elim hne2 (plain_last hy)), ← path_concat abs _ x (by simp)]

theorem dropWhile_name {x : Str} (hx : '/' ∉ x) (a : Str) : ((a ++ x).reverse.dropWhile (fun c => c != '/')) = a.reverse.dropWhile (fun c => c != '/') := by
  rw [List.reverse_append]
  have : ∀ c ∈ x.reverse, (c != '/') = true := by
    intro c hc
    rw [List.mem_reverse] at hc
    simp only [bne_iff_ne, ne_eq]
    rintro rfl
    exact hx hc
  generalize x.reverse = y at this
  induction y with
  | nil => rfl
  | cons c l ih =>
    rw [List.cons_append, List.dropWhile_cons, if_pos (this c (by simp))]
    exact ih (fun d hd => this d (by simp [hd]))

theorem dirname_path (abs : Bool) {ns : List Str} {x : Str} (hx : Plain x) (h : ∀ y ∈ ns, Plain y) : dirname (pathOf abs (ns ++ [x])) = pathOf abs ns := by
  by_cases hne : ns = []
  · subst hne
    cases abs with
    | false =>
      have e : pathOf false ([] ++ [x]) = [] ++ x := by simp [pathOf, slashJoin]
      rw [e]
      unfold dirname
      rw [dropWhile_name hx.2]
      rfl
    | true =>
      have e : pathOf true ([] ++ [x]) = ['/'] ++ x := by simp [pathOf, slashJoin]
      rw [e]
      unfold dirname
      rw [dropWhile_name hx.2]
      rfl
  · rw [path_concat abs ns x hne]
    have e : pathOf abs ns ++ '/' :: x = (pathOf abs ns ++ ['/']) ++ x := by simp
    unfold dirname
    rw [e, dropWhile_name hx.2]
    have hd : (pathOf abs ns ++ ['/']).reverse.dropWhile (fun c => c != '/') = (pathOf abs ns ++ ['/']).reverse := by
      rw [List.reverse_append]
      rfl
    rw [hd, List.reverse_reverse]
    obtain ⟨ns', y, rfl⟩ : ∃ a y, ns = a ++ [y] := ⟨ns.dropLast, ns.getLast hne, (List.dropLast_concat_getLast hne).symm⟩
    have hy := h y (by simp)
    -- the path ends in a character that is no slash
    obtain ⟨q, c, hq, hc⟩ : ∃ q c, pathOf abs (ns' ++ [y]) = q ++ [c] ∧ c ≠ '/' := by
      obtain ⟨z, c, rfl⟩ : ∃ z c, y = z ++ [c] := ⟨y.dropLast, y.getLast hy.1, (List.dropLast_concat_getLast hy.1).symm⟩
      have hc : c ≠ '/' := fun e => hy.2 (by rw [e]; simp)
      by_cases hn : ns' = []
      · subst hn
        exact ⟨(if abs = true then ['/'] else []) ++ z, c, by simp [pathOf, slashJoin], hc⟩
      · rw [path_concat abs ns' _ hn]
        exact ⟨pathOf abs ns' ++ '/' :: z, c, by simp, hc⟩
    rw [hq]
    have hall : (q ++ [c] ++ ['/']).all (fun c => c == '/') = false := by simp [hc]
    simp only [hall, Bool.false_eq_true, if_false]
    simp [List.reverse_append, hc]

theorem dirname_root (abs : Bool) : dirname (pathOf abs []) = pathOf abs [] := by cases abs <;> rfl

/-- Looking below one directory. -/
theorem lookIn_spec (fs : Dirs) (isLib : Str → Bool) (abs : Bool) {ns : List Str} (hr : Readable fs) (h : ∀ x ∈ ns, Plain x) :
    ∀ (ls : List Str) (hit : Bool), (∀ l ∈ ls, Plain l) →
      let found := (ls.flatMap (fun l => if fs.isdir (pathOf abs (ns ++ [l])) = true then
        (((fs.listdir (pathOf abs (ns ++ [l]))).getD []).filter isLib).map (fun f => pathOf abs (ns ++ [l, f])) else [])).head?
      (∃ f, found = some f ∧ lookIn fs isLib (pathOf abs ns) ls hit = .ok (some f, true)) ∨
      (found = none ∧ lookIn fs isLib (pathOf abs ns) ls hit = .ok (none, hit || ls.any (fun l => fs.isdir (pathOf abs (ns ++ [l]))))) := by
  intro ls
  induction ls with
  | nil => intro hit _; right; simp [lookIn]
  | cons l ls ih =>
    intro hit hl
    have hp := hl l (by simp)
    have ih := fun hit => ih hit (fun x hx => hl x (by simp [hx]))
    simp only [List.flatMap_cons]
    rw [lookIn, osJoin_path abs hp h]
    by_cases hd : fs.isdir (pathOf abs (ns ++ [l])) = true
    · obtain ⟨files, hf, hfp⟩ := hr.list _ hd
      simp only [hd, if_true, hf, Option.getD_some]
      cases hfind : files.find? isLib with
      | some f =>
        left
        have hfl : Plain f := hfp f (List.mem_of_find?_eq_some hfind)
        refine ⟨pathOf abs (ns ++ [l, f]), ?_, ?_⟩
        · rw [List.head?_append, List.head?_map, List.head?_filter, hfind]; rfl
        · have : osJoin (pathOf abs (ns ++ [l])) f = pathOf abs (ns ++ [l, f]) := by
            rw [osJoin_path abs hfl (by intro y hy; rcases List.mem_append.1 hy with hy | hy
                                        · exact h y hy
                                        · rw [List.mem_singleton.1 hy]; exact hp)]
            simp
          simp only [this]
      | none =>
        have hnil : files.filter isLib = [] := by
          rw [List.filter_eq_nil_iff]
          intro x hx
          exact List.find?_eq_none.1 hfind x hx
        rw [hnil]
        simp only [List.map_nil, List.nil_append]
        rcases ih true with ⟨f, h1, h2⟩ | ⟨h1, h2⟩
        · exact .inl ⟨f, h1, h2⟩
        · refine .inr ⟨h1, ?_⟩
          rw [h2]
          simp [hd]
    · simp only [hd, Bool.false_eq_true, if_false, List.nil_append]
      rcases ih hit with ⟨f, h1, h2⟩ | ⟨h1, h2⟩
      · exact .inl ⟨f, h1, h2⟩
      · refine .inr ⟨h1, ?_⟩
        rw [h2]
        simp [hd]

/-- A directory with a library directory. -/
def HasLibDir (fs : Dirs) (abs : Bool) (ns : List Str) : Prop := ∃ l ∈ [c!"lib64", c!"lib"], fs.isdir (pathOf abs (ns ++ [l])) = true

theorem lookIn_dirs (fs : Dirs) (isLib : Str → Bool) (abs : Bool) {ns : List Str} (hr : Readable fs) (h : ∀ x ∈ ns, Plain x) :
    (∃ f, (librariesAt fs isLib abs ns).head? = some f ∧ lookIn fs isLib (pathOf abs ns) libraryDirs false = .ok (some f, true)) ∨
    ((librariesAt fs isLib abs ns).head? = none ∧ HasLibDir fs abs ns ∧ lookIn fs isLib (pathOf abs ns) libraryDirs false = .ok (none, true)) ∨
    ((librariesAt fs isLib abs ns).head? = none ∧ ¬ HasLibDir fs abs ns ∧ lookIn fs isLib (pathOf abs ns) libraryDirs false = .ok (none, false)) := by
  have hpl : ∀ l ∈ libraryDirs, Plain l := by
    intro l hl
    simp only [libraryDirs, List.mem_cons, List.not_mem_nil, or_false] at hl
    rcases hl with rfl | rfl <;> exact ⟨by decide, by decide⟩
  rcases lookIn_spec fs isLib abs hr h libraryDirs false hpl with ⟨f, h1, h2⟩ | ⟨h1, h2⟩
  · exact .inl ⟨f, h1, h2⟩
  · right
    by_cases hh : HasLibDir fs abs ns
    · left
      refine ⟨h1, hh, ?_⟩
      rw [h2]
      have : libraryDirs.any (fun l => fs.isdir (pathOf abs (ns ++ [l]))) = true := by
        obtain ⟨l, hl, hd⟩ := hh
        exact List.any_eq_true.2 ⟨l, hl, hd⟩
      rw [this]
      rfl
    · right
      refine ⟨h1, hh, ?_⟩
      rw [h2]
      have : libraryDirs.any (fun l => fs.isdir (pathOf abs (ns ++ [l]))) = false := by
        cases ha : libraryDirs.any (fun l => fs.isdir (pathOf abs (ns ++ [l]))) with
        | false => rfl
        | true =>
          obtain ⟨l, hl, hd⟩ := List.any_eq_true.1 ha
          exact absurd ⟨l, hl, hd⟩ hh
      rw [this]
      rfl

theorem upwards_concat (ns : List Str) (x : Str) : upwards (ns ++ [x]) = (ns ++ [x]) :: upwards ns := by
  induction ns with
  | nil => rfl
  | cons y ns ih =>
    rw [List.cons_append, upwards, ih]
    rfl

/-- What decides: the nearest directory that has a library directory. -/
def Nearest (fs : Dirs) (abs : Bool) (ns : List Str) : Option (List Str) → Prop
  | some a => ∃ u v, upwards ns = u ++ a :: v ∧ HasLibDir fs abs a ∧ ∀ b ∈ u, ¬ HasLibDir fs abs b
  | none => ∀ b ∈ upwards ns, ¬ HasLibDir fs abs b

theorem path_length (abs : Bool) {ns : List Str} (h : ∀ x ∈ ns, Plain x) : ns.length ≤ (pathOf abs ns).length := by
  have hj : ∀ {l : List Str}, (∀ x ∈ l, Plain x) → l.length ≤ (slashJoin l).length := by
    intro l
    cases l with
    | nil => intro _; simp
    | cons x l =>
      intro hl
      have hx : 1 ≤ x.length := List.length_pos_iff.2 (hl x (by simp)).1
      have : l.length ≤ ((l.map (fun c => '/' :: c)).flatten).length := by
        clear hl
        induction l with
        | nil => simp
        | cons y l ih => simp only [List.map_cons, List.flatten_cons, List.length_append, List.length_cons]; omega
      simp only [slashJoin, List.length_append, List.length_cons]
      omega
  have := hj h
  unfold pathOf
  rw [List.length_append]
  omega

theorem libraries_hasDir {fs : Dirs} {isLib : Str → Bool} {abs : Bool} {ns : List Str} {f : Str} (h : (librariesAt fs isLib abs ns).head? = some f) :
    HasLibDir fs abs ns := by
  have hm := List.mem_of_head? h
  unfold librariesAt at hm
  obtain ⟨l, hl, hm⟩ := List.mem_flatMap.1 hm
  by_cases hd : fs.isdir (pathOf abs (ns ++ [l])) = true
  · exact ⟨l, hl, hd⟩
  · rw [if_neg hd] at hm; simp at hm

/-- The search ends, for every directory, and the nearest directory with a library directory alone decides. -/
theorem C243_exact (fs : Dirs) (isLib : Str → Bool) (abs : Bool) (hr : Readable fs) (ns : List Str) (h : ∀ x ∈ ns, Plain x) :
    ∃ a, Nearest fs abs ns a ∧ searchUp fs isLib (pathOf abs ns) = .ok (a.bind (fun a => (librariesAt fs isLib abs a).head?)) := by
  have key : ∀ (r : List Str) (n : Nat) (prev : Option Str), (∀ x ∈ r, Plain x) → r.length + 1 < n → prev ≠ some (pathOf abs r.reverse) →
      ∃ a, Nearest fs abs r.reverse a ∧ searchLoop fs isLib n prev (pathOf abs r.reverse) = .ok (a.bind (fun a => (librariesAt fs isLib abs a).head?)) := by
    intro r
    induction r with
    | nil =>
      intro n prev _ hn hprev
      obtain ⟨n, rfl⟩ : ∃ k, n = k + 2 := ⟨n - 2, by simp at hn; omega⟩
      rw [List.reverse_nil] at hprev ⊢
      rw [searchLoop, if_neg hprev]
      rcases lookIn_dirs fs isLib abs (ns := []) hr (by simp) with ⟨f, h1, h2⟩ | ⟨h1, h2, h3⟩ | ⟨h1, h2, h3⟩
      · refine ⟨some [], ⟨[], [], rfl, libraries_hasDir h1, by simp⟩, ?_⟩
        rw [h2]
        simp only [Option.bind_some, h1]
      · refine ⟨some [], ⟨[], [], rfl, h2, by simp⟩, ?_⟩
        rw [h3]
        simp only [if_true, Option.bind_some, h1]
      · refine ⟨none, by intro b hb; simp [upwards] at hb; rw [hb]; exact h2, ?_⟩
        rw [h3]
        simp only [Bool.false_eq_true, if_false]
        rw [dirname_root, searchLoop, if_pos rfl]
        rfl
    | cons x r ih =>
      intro n prev hp hn hprev
      obtain ⟨n, rfl⟩ : ∃ k, n = k + 1 := ⟨n - 1, by omega⟩
      rw [List.reverse_cons] at hprev ⊢
      have hpx : Plain x := hp x (by simp)
      have hpr : ∀ y ∈ r.reverse, Plain y := fun y hy => hp y (by simp [List.mem_reverse.1 hy])
      have hpa : ∀ y ∈ r.reverse ++ [x], Plain y := by
        intro y hy
        rcases List.mem_append.1 hy with hy | hy
        · exact hpr y hy
        · rw [List.mem_singleton.1 hy]; exact hpx
      rw [searchLoop, if_neg hprev]
      rcases lookIn_dirs fs isLib abs (ns := r.reverse ++ [x]) hr hpa with ⟨f, h1, h2⟩ | ⟨h1, h2, h3⟩ | ⟨h1, h2, h3⟩
      · refine ⟨some (r.reverse ++ [x]), ⟨[], upwards r.reverse, upwards_concat _ _, libraries_hasDir h1, by simp⟩, ?_⟩
        rw [h2]
        simp only [Option.bind_some, h1]
      · refine ⟨some (r.reverse ++ [x]), ⟨[], upwards r.reverse, upwards_concat _ _, h2, by simp⟩, ?_⟩
        rw [h3]
        simp only [if_true, Option.bind_some, h1]
      · rw [h3]
        simp only [Bool.false_eq_true, if_false]
        rw [dirname_path abs hpx hpr]
        have hne : some (pathOf abs (r.reverse ++ [x])) ≠ some (pathOf abs r.reverse) := by
          intro e
          have e := congrArg List.length (Option.some.inj e)
          have hx1 : 1 ≤ x.length := List.length_pos_iff.2 hpx.1
          by_cases hn : r.reverse = []
          · rw [hn] at e
            have hx2 := hpx.1
            cases abs <;> simp [pathOf, slashJoin] at e <;> exact hx2 e
          · rw [path_concat abs _ x hn, List.length_append, List.length_cons] at e
            omega
        obtain ⟨a, k1, k2⟩ := ih n (some (pathOf abs (r.reverse ++ [x]))) (fun y hy => hp y (by simp [hy])) (by simp at hn; omega) hne
        refine ⟨a, ?_, k2⟩
        cases a with
        | none =>
          intro b hb
          rw [upwards_concat] at hb
          rcases List.mem_cons.1 hb with rfl | hb
          · exact h2
          · exact k1 b hb
        | some a =>
          obtain ⟨u, v, e, k3, k4⟩ := k1
          refine ⟨(r.reverse ++ [x]) :: u, v, by rw [upwards_concat, e]; rfl, k3, ?_⟩
          intro b hb
          rcases List.mem_cons.1 hb with rfl | hb
          · exact h2
          · exact k4 b hb
  have hlen := path_length abs h
  have := key ns.reverse ((pathOf abs ns).length + 2) none (fun x hx => h x (List.mem_reverse.1 hx)) (by rw [List.length_reverse]; omega) (by simp)
  rw [List.reverse_reverse] at this
  exact this

/-- What holds of C243: no directory on the way has a library directory without the library.  Missing: those directories. -/
theorem C243_partial (fs : Dirs) (isLib : Str → Bool) (abs : Bool) (ns : List Str) (hr : Readable fs) (h : ∀ x ∈ ns, Plain x)
    (hin : ∀ a ∈ upwards ns, HasLibDir fs abs a → librariesAt fs isLib abs a ≠ []) :
    searchUp fs isLib (pathOf abs ns) = .ok ((upwards ns).flatMap (librariesAt fs isLib abs)).head? := by
  obtain ⟨a, h1, h2⟩ := C243_exact fs isLib abs hr ns h
  rw [h2]
  have hempty : ∀ u : List (List Str), (∀ b ∈ u, ¬ HasLibDir fs abs b) → u.flatMap (librariesAt fs isLib abs) = [] := by
    intro u hu
    rw [List.flatMap_eq_nil_iff]
    intro b hb
    cases hl : librariesAt fs isLib abs b with
    | nil => rfl
    | cons f l => exact absurd (libraries_hasDir (isLib := isLib) (by rw [hl]; rfl)) (hu b hb)
  cases a with
  | none =>
    rw [hempty _ h1]
    rfl
  | some a =>
    obtain ⟨u, v, e, k1, k2⟩ := h1
    rw [e, List.flatMap_append, hempty u k2, List.nil_append, List.flatMap_cons]
    have hne := hin a (by rw [e]; simp) k1
    cases hl : librariesAt fs isLib abs a with
    | nil => exact absurd hl hne
    | cons f l => simp [hl]

/-- /a/b has an empty lib, /a/lib has the library. -/
def twoDirs : Dirs where
  isdir p := p == (c!"/a/b/lib") || p == (c!"/a/lib")
  listdir p := if p = (c!"/a/b/lib") then some [] else if p = (c!"/a/lib") then some [c!"libvital_c.so"] else none

theorem twoDirs_readable : Readable twoDirs where
  list := by
    intro d hd
    simp only [twoDirs, Bool.or_eq_true, beq_iff_eq] at hd
    rcases hd with rfl | rfl
    · exact ⟨[], by decide +kernel, by simp⟩
    · exact ⟨[c!"libvital_c.so"], by decide +kernel, by intro f hf; rw [List.mem_singleton.1 hf]; exact ⟨by decide, by decide⟩⟩

/-- False of the code: a library directory without the library ends the search. -/
theorem C243_refuted : ¬ C243_statement := by
  intro h
  have := h twoDirs (isLibrary (c!"vital_c")) true [c!"a", c!"b"] twoDirs_readable
    (by intro x hx; simp at hx; rcases hx with rfl | rfl <;> exact ⟨by decide, by decide⟩)
  revert this
  decide +kernel

/-- The hypotheses of the partial theorem are met: from /a/c the library of /a is found. -/
example : searchUp twoDirs (isLibrary (c!"vital_c")) (c!"/a/c") = .ok (some (c!"/a/lib/libvital_c.so")) := by decide +kernel

/-! ### C244 -/

theorem prefix_iff (a b : Str) : a.isPrefixOf b = true ↔ ∃ t, b = a ++ t := by
  rw [List.isPrefixOf_iff_prefix]
  constructor
  · rintro ⟨t, h⟩; exact ⟨t, h.symm⟩
  · rintro ⟨t, h⟩; exact ⟨t, h.symm⟩

theorem rest_iff (name s : Str) : restMatches name s = true ↔
    ∃ c ext suf, c ≠ '\n' ∧ (ext = (c!"so") ∨ ext = (c!"dylib") ∨ ext = (c!"dll")) ∧ s = name ++ c :: (ext ++ suf) := by
  unfold restMatches
  rw [Bool.and_eq_true, prefix_iff]
  constructor
  · rintro ⟨⟨t, rfl⟩, h⟩
    rw [List.drop_left] at h
    cases t with
    | nil => cases h
    | cons c t =>
      simp only [Bool.and_eq_true, bne_iff_ne, ne_eq, Bool.or_eq_true, prefix_iff] at h
      obtain ⟨hc, (⟨u, rfl⟩ | ⟨u, rfl⟩) | ⟨u, rfl⟩⟩ := h
      · exact ⟨c, c!"so", u, hc, .inl rfl, rfl⟩
      · exact ⟨c, c!"dylib", u, hc, .inr (.inl rfl), rfl⟩
      · exact ⟨c, c!"dll", u, hc, .inr (.inr rfl), rfl⟩
  · rintro ⟨c, ext, suf, hc, he, rfl⟩
    refine ⟨⟨_, rfl⟩, ?_⟩
    rw [List.drop_left]
    simp only [Bool.and_eq_true, bne_iff_ne, ne_eq, Bool.or_eq_true, prefix_iff]
    refine ⟨hc, ?_⟩
    rcases he with rfl | rfl | rfl
    · exact .inl (.inl ⟨suf, rfl⟩)
    · exact .inl (.inr ⟨suf, rfl⟩)
    · exact .inr ⟨suf, rfl⟩

/-- Exactly which names are taken for the library. -/
theorem C244_exact (name s : Str) : isLibrary name s = true ↔ ∃ pre c ext suf, (pre = [] ∨ pre = (c!"lib")) ∧ c ≠ '\n' ∧
    (ext = (c!"so") ∨ ext = (c!"dylib") ∨ ext = (c!"dll")) ∧ s = pre ++ name ++ c :: (ext ++ suf) := by
  unfold isLibrary
  rw [Bool.or_eq_true, Bool.and_eq_true, prefix_iff]
  constructor
  · rintro (⟨⟨t, rfl⟩, h⟩ | h)
    · have e : (c!"lib" ++ t).drop 3 = t := rfl
      rw [e, rest_iff] at h
      obtain ⟨c, ext, suf, hc, he, rfl⟩ := h
      exact ⟨c!"lib", c, ext, suf, .inr rfl, hc, he, by simp⟩
    · rw [rest_iff] at h
      obtain ⟨c, ext, suf, hc, he, rfl⟩ := h
      exact ⟨[], c, ext, suf, .inl rfl, hc, he, by simp⟩
  · rintro ⟨pre, c, ext, suf, hp, hc, he, rfl⟩
    rcases hp with rfl | rfl
    · exact .inr ((rest_iff _ _).2 ⟨c, ext, suf, hc, he, by simp⟩)
    · left
      refine ⟨⟨name ++ c :: (ext ++ suf), by simp⟩, ?_⟩
      have e : ((c!"lib") ++ name ++ c :: (ext ++ suf)).drop 3 = name ++ c :: (ext ++ suf) := by
        rw [List.append_assoc]; rfl
      rw [e]
      exact (rest_iff _ _).2 ⟨c, ext, suf, hc, he, rfl⟩

/-- What holds of C244: the library is always recognised, whatever its version, and what is recognised begins like one.  Missing: only those. -/
theorem C244_partial (name s : Str) (h : LibraryName name s) : isLibrary name s = true := by
  obtain ⟨pre, ext, suf, h1, h2, _, rfl⟩ := h
  exact (C244_exact name _).2 ⟨pre, '.', ext, suf, h1, by decide, h2, by simp⟩

/-- False of the code: the dot of the expression stands for any character, and anything may follow. -/
theorem C244_refuted : ¬ C244_statement := by
  intro h
  have h1 : isLibrary (c!"vital_c") (c!"vital_c_source.zip") = true := by decide +kernel
  obtain ⟨pre, ext, suf, hp, he, hs, e⟩ := (h _).1 h1
  have hd : (c!"vital_c_source.zip").take 8 = (pre ++ (c!"vital_c") ++ ['.'] ++ ext ++ suf).take 8 := congrArg (List.take 8) e
  rcases hp with rfl | rfl <;> rcases he with rfl | rfl | rfl <;> revert hd <;> simp [List.take] <;> decide

/-! ### C245 -/

theorem splitColon_ne (s : Str) : splitColon s ≠ [] := by
  cases s with
  | nil => simp [splitColon]
  | cons c s =>
    unfold splitColon
    split
    · simp
    · split <;> simp

theorem splitColon_parts (s : Str) : Parts s (splitColon s) := by
  induction s with
  | nil => exact ⟨by intro d hd; simp [splitColon] at hd; rw [hd]; simp, [], [], rfl, rfl⟩
  | cons c s ih =>
    obtain ⟨h1, d0, l, h2, h3⟩ := ih
    unfold splitColon
    by_cases hc : c = ':'
    · rw [if_pos hc]
      refine ⟨?_, [], splitColon s, rfl, ?_⟩
      · intro d hd
        rcases List.mem_cons.1 hd with rfl | hd
        · simp
        · exact h1 d hd
      · rw [h2, hc, List.map_cons, List.flatten_cons, List.nil_append, List.cons_append, ← h3]
    · rw [if_neg hc, h2]
      simp only
      refine ⟨?_, c :: d0, l, rfl, ?_⟩
      · intro d hd
        rw [h2] at h1
        rcases List.mem_cons.1 hd with rfl | hd
        · intro hm
          rcases List.mem_cons.1 hm with e | hm
          · exact hc e.symm
          · exact h1 d0 (by simp) hm
        · exact h1 d (by simp [hd])
      · rw [List.cons_append, ← h3]

theorem firstHit_spec (fs : Dirs) (isLib : Str → Bool) : ∀ ds, First fs isLib ds (firstHit fs isLib ds) := by
  intro ds
  induction ds with
  | nil => intro x hx; simp at hx
  | cons d ds ih =>
    unfold firstHit
    cases hs : searchUp fs isLib d with
    | raised e => exact ⟨[], d, ds, rfl, hs, by simp⟩
    | ok r =>
      cases r with
      | some f => exact ⟨[], d, ds, rfl, hs, by simp⟩
      | none =>
        simp only
        have hx : ∀ {a : List Str}, (∀ x ∈ a, searchUp fs isLib x = .ok none) → ∀ x ∈ d :: a, searchUp fs isLib x = .ok none := by
          intro a ha x hx
          rcases List.mem_cons.1 hx with rfl | hx
          · exact hs
          · exact ha x hx
        cases hf : firstHit fs isLib ds with
        | raised e =>
          rw [hf] at ih
          obtain ⟨a, d', b, e1, e2, e3⟩ := ih
          exact ⟨d :: a, d', b, by rw [e1]; rfl, e2, hx e3⟩
        | ok r =>
          rw [hf] at ih
          cases r with
          | some f =>
            obtain ⟨a, d', b, e1, e2, e3⟩ := ih
            exact ⟨d :: a, d', b, by rw [e1]; rfl, e2, hx e3⟩
          | none => exact hx ih

/-- False of the code: without LD_LIBRARY_PATH it raises KeyError, though the library is in the build directory. -/
theorem C245_refuted : ¬ C245_statement := by
  intro h
  obtain ⟨ds, r, h1, _, h3, h4⟩ := h twoDirs (c!"/x/y.py") none (c!"/a")
  have e : (findPath twoDirs (c!"/x/y.py") none (c!"/a") none).1 = .raised .keyError := by decide +kernel
  rw [e] at h4
  have hs : searchUp twoDirs (isLibrary (c!"vital_c")) (c!"/a") = .ok (some (c!"/a/lib/libvital_c.so")) := by decide +kernel
  have hne : ((c!"/a") ≠ []) = True := by simp
  simp only [hne, if_true] at h3
  cases r with
  | ok o =>
    cases o with
    | some f => cases h4
    | none => cases h4
  | raised err =>
    simp only at h4
    obtain ⟨a, d, b, e1, e2, e3⟩ := h3
    cases a with
    | nil =>
      rw [List.nil_append] at e1
      have := (List.cons.inj e1).1
      rw [← this, hs] at e2
      cases e2
    | cons x a =>
      rw [List.cons_append] at e1
      have := (List.cons.inj e1).1
      have h5 := e3 x (by simp)
      rw [← this, hs] at h5
      cases h5

/-- What holds of C245: LD_LIBRARY_PATH is set.  Missing: an environment without it. -/
theorem C245_partial (fs : Dirs) (here e build : Str) : ∃ ds r, Parts e ds ∧
    First fs (isLibrary (c!"vital_c")) ((if build ≠ [] then [build] else []) ++ dirname here :: ds) r ∧
    (findPath fs here (some e) build none).1 = (match r with
      | .ok (some f) => .ok f
      | .ok none => .raised .runtimeError
      | .raised e => .raised e) := by
  refine ⟨splitColon e, _, splitColon_parts e, firstHit_spec fs _ _, ?_⟩
  unfold findPath
  simp only
  cases firstHit fs (isLibrary (c!"vital_c")) ((if build ≠ [] then [build] else []) ++ dirname here :: splitColon e) with
  | raised err => rfl
  | ok r => cases r <;> rfl

/-! ### C246: one library for the whole run -/

/-- Calls in different circumstances, with the cache between them. -/
def calls (here build : Str) : List (Dirs × Option Str) → Option Str → List (Res Str)
  | [], _ => []
  | (fs, env) :: l, cache => (findPath fs here env build cache).1 :: calls here build l (findPath fs here env build cache).2

theorem find_cached (fs : Dirs) (here : Str) (env : Option Str) (build c : Str) : findPath fs here env build (some c) = (.ok c, some c) := rfl

theorem find_stores (fs : Dirs) (here : Str) (env : Option Str) (build : Str) (cache : Option Str) :
    (findPath fs here env build cache).2 = (match (findPath fs here env build cache).1 with
      | .ok f => some f
      | .raised _ => none) := by
  unfold findPath
  cases cache with
  | some c => rfl
  | none =>
    cases env with
    | none => rfl
    | some e =>
      simp only
      cases firstHit fs (isLibrary (c!"vital_c")) ((if build ≠ [] then [build] else []) ++ dirname here :: splitColon e) with
      | raised err => rfl
      | ok r => cases r <;> rfl

theorem calls_cached (here build c : Str) : ∀ l : List (Dirs × Option Str), calls here build l (some c) = l.map (fun _ => .ok c)
  | [] => rfl
  | (fs, env) :: l => by
    rw [calls, find_cached, List.map_cons]
    simp only
    rw [calls_cached here build c l]

/-- After the first success every call gives the same library; a failure is not remembered: until then each call gives what a first call would. -/
theorem C246_once (here build : Str) : ∀ (l : List (Dirs × Option Str)),
    (∃ (a : List (Dirs × Option Str)) (q : Dirs × Option Str) (b : List (Dirs × Option Str)) (f : Str), l = a ++ q :: b ∧
      (∀ p ∈ a, ∃ e, (findPath p.1 here p.2 build none).1 = .raised e) ∧
      (findPath q.1 here q.2 build none).1 = .ok f ∧
      calls here build l none = a.map (fun p => (findPath p.1 here p.2 build none).1) ++ (q :: b).map (fun _ => .ok f)) ∨
    ((∀ p ∈ l, ∃ e, (findPath p.1 here p.2 build none).1 = .raised e) ∧
      calls here build l none = l.map (fun p => (findPath p.1 here p.2 build none).1)) := by
  intro l
  induction l with
  | nil => right; exact ⟨by simp, rfl⟩
  | cons p l ih =>
    obtain ⟨fs, env⟩ := p
    rw [calls]
    have hst := find_stores fs here env build none
    cases hr : (findPath fs here env build none).1 with
    | ok f =>
      rw [hr] at hst
      left
      refine ⟨[], (fs, env), l, f, rfl, by simp, hr, ?_⟩
      rw [hst]
      simp only
      rw [calls_cached]
      rfl
    | raised e =>
      rw [hr] at hst
      rw [hst]
      simp only
      rcases ih with ⟨a, q, b, f, h1, h2, h3, h4⟩ | ⟨h1, h2⟩
      · left
        refine ⟨(fs, env) :: a, q, b, f, by rw [h1]; rfl, ?_, h3, ?_⟩
        · intro p hp
          rcases List.mem_cons.1 hp with rfl | hp
          · exact ⟨e, hr⟩
          · exact h2 p hp
        · rw [h4, List.map_cons (l := a), hr]; rfl
      · right
        refine ⟨?_, ?_⟩
        · intro p hp
          rcases List.mem_cons.1 hp with rfl | hp
          · exact ⟨e, hr⟩
          · exact h1 p hp
        · rw [h2, List.map_cons, hr]

/-- A run: the library appears only later, in /a/lib. -/
example : calls (c!"/x/y.py") (c!"/a") [(⟨fun _ => false, fun _ => none⟩, some []), (twoDirs, some []), (⟨fun _ => false, fun _ => none⟩, none)] none =
    [.raised .runtimeError, .ok (c!"/a/lib/libvital_c.so"), .ok (c!"/a/lib/libvital_c.so")] := by decide +kernel

end Vital.Py.Lib
