import Verif.Sys.Paths
/-
  A file system for the file operations of vital/kwiversys/SystemTools.cxx: a tree of directories, regular files and symbolic links, and the POSIX calls the code makes.
  Not modelled: hard links, special files, names that are not texts.  Whether a call is permitted is a parameter (`Host.may`), so that every theorem holds for all ways
  in which calls can be refused.
-/
namespace Vital.Files
open Vital

/-- What a name stands for. -/
inductive Node where
  | file (bytes : List Nat) (mode : Nat)
  | link (target : Str)
  | dir (mode : Nat) (entries : List (Str × Node))

/-- Names from the root on. -/
abbrev Path := List Str

/-- The whole file system; `none` if there is nothing at all. -/
abbrev Tree := Option Node

def find (es : List (Str × Node)) (c : Str) : Option Node := (es.find? fun e => e.1 == c).map Prod.snd

def getN : Node → Path → Option Node
  | n, [] => some n
  | .dir _ es, c :: p => match find es c with
    | some m => getN m p
    | none => none
  | _, _ :: _ => none

/-- What is found at a path. -/
def get (t : Tree) (p : Path) : Option Node := t.bind fun n => getN n p

/-- The entries with `c` standing for `o`. -/
def setEntry (es : List (Str × Node)) (c : Str) : Option Node → List (Str × Node)
  | none => es.filter fun e => e.1 != c
  | some n => if es.any (fun e => e.1 == c) then es.map (fun e => if e.1 = c then (c, n) else e) else es ++ [(c, n)]

/-- The tree with what is at path `p` changed by `f`; unchanged where the directory of `p` is not there. -/
def alter (f : Option Node → Option Node) : Tree → Path → Tree
  | o, [] => f o
  | some (.dir m es), c :: p => some (.dir m (setEntry es c (alter f (find es c) p)))
  | o, _ :: _ => o

/-- What can be seen at a path without looking below it. -/
inductive Obs where
  | file (bytes : List Nat) (mode : Nat)
  | link (target : Str)
  | dir (mode : Nat)
deriving DecidableEq

def Node.obs : Node → Obs
  | .file b m => .file b m
  | .link t => .link t
  | .dir m _ => .dir m

/-- What can be seen at a path. -/
def see (t : Tree) (p : Path) : Option Obs := (get t p).map Node.obs

def Node.isDir : Node → Bool
  | .dir _ _ => true
  | _ => false

/-! ### Calls -/

inductive Errno where
  | exist | noent | other
deriving DecidableEq

inductive Call where
  | read | mkdir | unlink | rmdir | create | write | chmod

/-- The process and what it may do. -/
structure Host where
  cwd : Path := []
  /-- bound for the steps of a path look-up -/
  steps : Nat := 1000
  /-- is a call permitted, in a state of the file system, for a path -/
  may : Call → Tree → Path → Bool := fun _ _ _ => true
  /-- bytes that are written if writing fails -/
  short : Tree → Path → Nat := fun _ _ => 0
  /-- modes of new directories and files, with the umask taken off -/
  dirMode : Nat := 0o755
  fileMode : Nat := 0o644
  /-- `st_size` of a directory -/
  dirSize : Path → Nat := fun _ => 4096
  /-- the environment, for `~` in ConvertToUnixSlashes -/
  world : Sys.World := {}

/-- The text cut at its slashes. -/
def pieces : Str → List Str
  | [] => [[]]
  | c :: s => if c = '/' then [] :: pieces s else match pieces s with
    | p :: ps => (c :: p) :: ps
    | [] => [[c]]

/-- Follow the names; `cur` has no links. -/
def walk (t : Tree) : Nat → Path → List Str → Except Errno Path
  | 0, _, _ => .error .other
  | _ + 1, cur, [] => .ok cur
  | k + 1, cur, c :: r =>
    match get t cur with
    | some (.dir _ _) =>
      if c = [] ∨ c = c!"." then walk t k cur r
      else if c = c!".." then walk t k cur.dropLast r
      else match get t (cur ++ [c]) with
        | some (.link tg) => walk t k (if tg.head? = some '/' then [] else cur) (pieces tg ++ r)
        | some _ => walk t k (cur ++ [c]) r
        | none => .error .noent
    | some _ => .error .other
    | none => .error .noent

variable (h : Host)

def start (s : Str) : Path := if s.head? = some '/' then [] else h.cwd

/-- Where a text leads to, links followed. -/
def locate (t : Tree) (s : Str) : Except Errno Path := if s = [] then .error .noent else walk t h.steps (start h s) (pieces s)

def stat (t : Tree) (s : Str) : Option Node := match locate h t s with
  | .ok p => get t p
  | .error _ => none

def dropSlashes (s : Str) : Str := (s.reverse.dropWhile (· == '/')).reverse

/-- Where a text leads to if a link at its end is not followed. -/
def place (t : Tree) (s : Str) : Except Errno Path :=
  if s = [] then .error .noent else
  match (pieces (dropSlashes s)).getLast? with
  | none => .error .other
  | some c =>
    if c = [] ∨ c = c!"." ∨ c = c!".." then .error .exist
    else match walk t h.steps (start h s) (pieces (dropSlashes s)).dropLast with
      | .error e => .error e
      | .ok p => match get t p with
        | some (.dir _ _) => .ok (p ++ [c])
        | some _ => .error .other
        | none => .error .noent

def lstat (t : Tree) (s : Str) : Option Node := match place h t s with
  | .ok p => get t p
  | .error _ => none

/-- `access( s, R_OK ) == 0` -/
def access (t : Tree) (s : Str) : Bool := match locate h t s with
  | .ok p => (get t p).isSome && h.may .read t p
  | .error _ => false

def mkdir (t : Tree) (s : Str) : Except Errno Tree := match place h t s with
  | .error e => .error e
  | .ok p =>
    if (get t p).isSome then .error .exist
    else if h.may .mkdir t p then .ok (alter (fun _ => some (.dir h.dirMode [])) t p)
    else .error .other

def unlink (t : Tree) (s : Str) : Except Errno Tree := match place h t s with
  | .error e => .error e
  | .ok p => match get t p with
    | none => .error .noent
    | some (.dir _ _) => .error .other
    | some _ => if h.may .unlink t p then .ok (alter (fun _ => none) t p) else .error .other

def rmdir (t : Tree) (s : Str) : Except Errno Tree := match place h t s with
  | .error e => .error e
  | .ok p => match get t p with
    | some (.dir _ []) => if h.may .rmdir t p then .ok (alter (fun _ => none) t p) else .error .other
    | _ => .error .other

def setMode (m : Nat) : Option Node → Option Node
  | some (.file b _) => some (.file b m)
  | some (.dir _ es) => some (.dir m es)
  | o => o

def chmod (t : Tree) (s : Str) (m : Nat) : Except Errno Tree := match locate h t s with
  | .error e => .error e
  | .ok p => match get t p with
    | none => .error .noent
    | some _ => if h.may .chmod t p then .ok (alter (setMode m) t p) else .error .other

/-- The names `readdir` gives; nothing if the directory can not be opened. -/
def readdir (t : Tree) (s : Str) : List Str := match locate h t s with
  | .error _ => []
  | .ok p => match get t p with
    | some (.dir _ es) => if h.may .read t p then c!"." :: c!".." :: es.map Prod.fst else []
    | _ => []

/-- Open for reading: the path, and the bytes; a directory can be opened but gives no bytes. -/
def openRead (t : Tree) (s : Str) : Option (Path × List Nat) := match locate h t s with
  | .error _ => none
  | .ok p => match get t p with
    | some (.file b _) => if h.may .read t p then some (p, b) else none
    | some (.dir _ _) => if h.may .read t p then some (p, []) else none
    | _ => none

/-- Open for writing with truncation (`O_CREAT | O_TRUNC`): the path, and the tree with the empty file; a link at the end is followed, at most 40 times. -/
def openWrite (t : Tree) : Nat → Str → Option (Path × Tree)
  | 0, _ => none
  | k + 1, s =>
    if s.getLast? = some '/' then none
    else match place h t s with
      | .error _ => none
      | .ok p => match get t p with
        | none => if h.may .create t p then some (p, alter (fun _ => some (.file [] h.fileMode)) t p) else none
        | some (.file _ m) => if h.may .create t p then some (p, alter (fun _ => some (.file [] m)) t p) else none
        | some (.dir _ _) => none
        | some (.link tg) => openWrite t k (if tg.head? = some '/' then tg else (p.dropLast.map fun c => '/' :: c).flatten ++ '/' :: tg)

def setBytes (b : List Nat) : Option Node → Option Node
  | some (.file _ m) => some (.file b m)
  | o => o

/-! ### Lemmas -/

theorem find_nil (c : Str) : find [] c = none := rfl

theorem find_cons (e : Str × Node) (es : List (Str × Node)) (c : Str) : find (e :: es) c = if e.1 = c then some e.2 else find es c := by
  unfold find
  by_cases h : e.1 = c
  · simp [h]
  · simp [h]

theorem find_append (es : List (Str × Node)) (c d : Str) (n : Node) (hc : es.any (fun e => e.1 == c) = false) :
    find (es ++ [(c, n)]) d = if d = c then some n else find es d := by
  induction es with
  | nil => simp only [List.nil_append, find_cons, find_nil]; by_cases h : c = d <;> simp [h, eq_comm]
  | cons e es ih =>
    simp only [List.any_cons, Bool.or_eq_false_iff, beq_eq_false_iff_ne] at hc
    rw [List.cons_append, find_cons, find_cons, ih hc.2]
    by_cases h1 : e.1 = d
    · have : d ≠ c := by rintro rfl; exact hc.1 h1
      simp [h1, this]
    · simp [h1]

theorem find_map (es : List (Str × Node)) (c d : Str) (n : Node) :
    find (es.map fun e => if e.1 = c then (c, n) else e) d = if d = c then (if es.any (fun e => e.1 == c) then some n else none) else find es d := by
  induction es with
  | nil => simp [find_nil]
  | cons e es ih =>
    rw [List.map_cons, find_cons, find_cons, ih]
    by_cases h1 : e.1 = c
    · by_cases h2 : d = c
      · simp [h1, h2]
      · have : ¬ c = d := fun h => h2 h.symm
        simp [h1, h2, this]
    · by_cases h2 : d = c
      · subst h2
        have : (e.1 == d) = false := by simpa using h1
        rw [List.any_cons, this, Bool.false_or]
        simp [h1]
      · simp [h1, h2]

theorem find_filter (es : List (Str × Node)) (c d : Str) : find (es.filter fun e => e.1 != c) d = if d = c then none else find es d := by
  induction es with
  | nil => simp [find_nil]
  | cons e es ih =>
    rw [List.filter_cons, find_cons]
    by_cases h1 : e.1 = c
    · have hn : ((e.1 != c) = true) = False := by simp [h1]
      rw [if_neg (by simp [h1]), ih]
      by_cases h2 : d = c
      · simp [h2]
      · have : ¬ e.1 = d := fun h => h2 (h.symm.trans h1)
        simp [h2, this]
    · rw [if_pos (by simp [h1]), find_cons, ih]
      by_cases h2 : d = c
      · subst h2; simp [h1]
      · simp [h2]

theorem find_set (es : List (Str × Node)) (c d : Str) (o : Option Node) : find (setEntry es c o) d = if d = c then o else find es d := by
  cases o with
  | none => exact find_filter es c d
  | some n =>
    show find (if es.any (fun e => e.1 == c) then es.map (fun e => if e.1 = c then (c, n) else e) else es ++ [(c, n)]) d = _
    by_cases h : es.any (fun e => e.1 == c) = true
    · rw [if_pos h, find_map, if_pos h]
    · rw [if_neg h]; exact find_append es c d n (Bool.eq_false_iff.2 h)

@[simp] theorem get_nil (t : Tree) : get t [] = t := by cases t <;> rfl

@[simp] theorem get_none (p : Path) : get none p = none := rfl

theorem get_dir (m : Nat) (es : List (Str × Node)) (c : Str) (p : Path) : get (some (.dir m es)) (c :: p) = get (find es c) p := by
  show getN (.dir m es) (c :: p) = _
  unfold getN
  cases find es c <;> rfl

theorem get_leaf {n : Node} (hn : n.isDir = false) (c : Str) (p : Path) : get (some n) (c :: p) = none := by
  cases n <;> first | rfl | cases hn

theorem get_append (t : Tree) (p q : Path) : get t (p ++ q) = get (get t p) q := by
  induction p generalizing t with
  | nil => simp
  | cons c p ih =>
    cases t with
    | none => simp
    | some n =>
      cases n with
      | dir m es => rw [List.cons_append, get_dir, get_dir, ih]
      | file b m => rw [List.cons_append, get_leaf rfl, get_leaf rfl, get_none]
      | link s => rw [List.cons_append, get_leaf rfl, get_leaf rfl, get_none]

/-- The directory of the path is there. -/
def HasDir (t : Tree) (p : Path) : Prop := p = [] ∨ ∃ m es, get t p.dropLast = some (.dir m es)

theorem hasDir_cons {m : Nat} {es : List (Str × Node)} {c d : Str} {p : Path} (hh : HasDir (some (.dir m es)) (c :: d :: p)) : HasDir (find es c) (d :: p) := by
  rcases hh with h | ⟨m', es', h⟩
  · cases h
  · right
    rw [List.dropLast_cons_of_ne_nil (by simp), get_dir] at h
    exact ⟨m', es', h⟩

theorem alter_at (f : Option Node → Option Node) (t : Tree) (p : Path) (hh : HasDir t p) : get (alter f t p) p = f (get t p) := by
  induction p generalizing t with
  | nil => simp [alter]
  | cons c p ih =>
    have hd : ∃ m es, t = some (.dir m es) := by
      cases t with
      | none => rcases hh with h | ⟨_, _, h⟩ <;> cases h
      | some n =>
        cases n with
        | dir m es => exact ⟨m, es, rfl⟩
        | file b m =>
          rcases hh with h | ⟨_, _, h⟩
          · cases h
          · cases p with
            | nil => simp at h
            | cons d p => rw [List.dropLast_cons_of_ne_nil (by simp), get_leaf rfl] at h; cases h
        | link s =>
          rcases hh with h | ⟨_, _, h⟩
          · cases h
          · cases p with
            | nil => simp at h
            | cons d p => rw [List.dropLast_cons_of_ne_nil (by simp), get_leaf rfl] at h; cases h
    obtain ⟨m, es, rfl⟩ := hd
    rw [alter, get_dir, get_dir, find_set, if_pos rfl]
    cases p with
    | nil => simp [alter]
    | cons d p => exact ih _ (hasDir_cons hh)

theorem alter_below (f : Option Node → Option Node) (t : Tree) (p q : Path) (hh : HasDir t p) : get (alter f t p) (p ++ q) = get (f (get t p)) q := by
  rw [get_append, alter_at f t p hh]

/-- Nothing else changes. -/
theorem alter_see (f : Option Node → Option Node) (t : Tree) (p q : Path) (hq : ¬ p <+: q) : see (alter f t p) q = see t q := by
  induction p generalizing t q with
  | nil => exact absurd (List.nil_prefix) hq
  | cons c p ih =>
    cases t with
    | none => rfl
    | some n =>
      cases n with
      | file b m => rfl
      | link s => rfl
      | dir m es =>
        cases q with
        | nil => rfl
        | cons d q =>
          unfold see
          rw [alter, get_dir, get_dir, find_set]
          by_cases h : d = c
          · subst h
            rw [if_pos rfl]
            exact ih (find es d) q (fun hp => hq (List.cons_prefix_cons.2 ⟨rfl, hp⟩))
          · rw [if_neg h]

/-- Neither above nor below the path, the very nodes are the same. -/
theorem alter_away (f : Option Node → Option Node) (t : Tree) (p q : Path) (hq : ¬ p <+: q) (hp : ¬ q <+: p) : get (alter f t p) q = get t q := by
  induction p generalizing t q with
  | nil => exact absurd (List.nil_prefix) hq
  | cons c p ih =>
    cases t with
    | none => rfl
    | some n =>
      cases n with
      | file b m => rfl
      | link s => rfl
      | dir m es =>
        cases q with
        | nil => exact absurd (List.nil_prefix) hp
        | cons d q =>
          rw [alter, get_dir, get_dir, find_set]
          by_cases h : d = c
          · subst h
            rw [if_pos rfl]
            exact ih (find es d) q (fun hp => hq (List.cons_prefix_cons.2 ⟨rfl, hp⟩)) (fun hq => hp (List.cons_prefix_cons.2 ⟨rfl, hq⟩))
          · rw [if_neg h]

/-- A directory above stays a directory, with its other entries. -/
theorem alter_above (f : Option Node → Option Node) (t : Tree) (p : Path) (c : Str) (q : Path) (m : Nat) (es : List (Str × Node)) (hg : get t p = some (.dir m es)) :
    get (alter f t (p ++ c :: q)) p = some (.dir m (setEntry es c (alter f (find es c) q))) := by
  induction p generalizing t with
  | nil => rw [get_nil] at hg; subst hg; rfl
  | cons d p ih =>
    cases t with
    | none => cases hg
    | some n =>
      cases n with
      | file b m => rw [get_leaf rfl] at hg; cases hg
      | link s => rw [get_leaf rfl] at hg; cases hg
      | dir m' es' =>
        rw [get_dir] at hg
        rw [List.cons_append, alter, get_dir, find_set, if_pos rfl]
        exact ih _ hg

theorem hasDir_snoc {t : Tree} {p : Path} {m : Nat} {es : List (Str × Node)} (hg : get t p = some (.dir m es)) (c : Str) : HasDir t (p ++ [c]) :=
  .inr ⟨m, es, by simpa using hg⟩

/-- What is there has its directory. -/
theorem hasDir_of_get {t : Tree} {p : Path} {n : Node} (hg : get t p = some n) : HasDir t p := by
  rcases List.eq_nil_or_concat p with rfl | ⟨q, c, rfl⟩
  · exact .inl rfl
  · rw [List.concat_eq_append] at *
    right
    rw [get_append] at hg
    rw [List.dropLast_concat]
    cases hq : get t q with
    | none => rw [hq] at hg; cases hg
    | some x =>
      cases x with
      | dir m es => exact ⟨m, es, rfl⟩
      | file b m => rw [hq, get_leaf rfl] at hg; cases hg
      | link s => rw [hq, get_leaf rfl] at hg; cases hg

theorem prefix_dir {t : Tree} {p : Path} {n : Node} (hg : get t p = some n) {q : Path} (hq : q <+: p) (hne : q ≠ p) : ∃ m es, get t q = some (.dir m es) := by
  obtain ⟨r, rfl⟩ := hq
  cases r with
  | nil => exact absurd (List.append_nil q).symm hne
  | cons c r =>
    rw [get_append] at hg
    cases hq : get t q with
    | none => rw [hq] at hg; cases hg
    | some x =>
      cases x with
      | dir m es => exact ⟨m, es, rfl⟩
      | file b m => rw [hq, get_leaf rfl] at hg; cases hg
      | link s => rw [hq, get_leaf rfl] at hg; cases hg

/-! ### Names and texts -/

/-- A name that can be an entry. -/
def Name (c : Str) : Prop := c ≠ [] ∧ c ≠ c!"." ∧ c ≠ c!".." ∧ '/' ∉ c

/-- The absolute text of a path. -/
def text (p : Path) : Str := (p.map fun c => '/' :: c).flatten

theorem pieces_ne (s : Str) : pieces s ≠ [] := by
  induction s with
  | nil => simp [pieces]
  | cons c s ih =>
    unfold pieces
    split
    · simp
    · split <;> simp

theorem pieces_append (c s : Str) (hc : '/' ∉ c) : pieces (c ++ '/' :: s) = c :: pieces s := by
  induction c with
  | nil => simp [pieces]
  | cons a c ih =>
    simp only [List.mem_cons, not_or] at hc
    rw [List.cons_append, pieces, if_neg (fun h => hc.1 h.symm), ih hc.2]

theorem pieces_one (c : Str) (hc : '/' ∉ c) : pieces c = [c] := by
  induction c with
  | nil => rfl
  | cons a c ih =>
    simp only [List.mem_cons, not_or] at hc
    rw [pieces, if_neg (fun h => hc.1 h.symm), ih hc.2]

theorem pieces_text (p : Path) (hp : ∀ c ∈ p, '/' ∉ c) : pieces (text p) = [] :: p := by
  have : ∀ c p, '/' ∉ c → (∀ c ∈ p, '/' ∉ c) → pieces (c ++ text p) = c :: p := by
    intro c p
    induction p generalizing c with
    | nil => intro hc _; simpa [text] using pieces_one c hc
    | cons d p ih =>
      intro hc hp
      rw [show c ++ text (d :: p) = c ++ '/' :: (d ++ text p) by simp [text], pieces_append c _ hc, ih d (hp d (by simp)) (fun c hc => hp c (by simp [hc]))]
  simpa using this [] p (by simp) hp

end Vital.Files
