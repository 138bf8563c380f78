import Verif.Sys.PathsProps
/-
  SystemTools::CreateSymlink, ReadSymlink (vital/kwiversys/SystemTools.cxx:3294-3323), ChangeDirectory, GetCurrentWorkingDirectory
  (vital/kwiversys/SystemTools.cxx:310-318, 3326-3345); properties C266 and C267.
-/
namespace Vital.Files.Lnk
open Vital Vital.Sys

def nul : Char := Char.ofNat 0

-- models: std::string::c_str read as a C string
def cstr (s : Str) : Str := s.takeWhile (fun c => c != nul)

/-- What a name is: a symbolic link with its text, or something else. -/
inductive Ent where
  | link (text : Str)
  | other
deriving DecidableEq

structure FS where
  ent : Str → Option Ent
  /-- the directory of the name exists and may be written to -/
  canMake : Str → Bool

-- models: symlink(2): an empty text, a text of PATH_MAX (4096) characters or more, a name in use and a directory that cannot be written to are errors;
-- names are taken to lead to different places
def symlink (s : FS) (a b : Str) : Option FS :=
  if a = [] ∨ 4096 ≤ a.length ∨ b = [] ∨ (s.ent b).isSome ∨ s.canMake b = false then none
  else some { s with ent := fun x => if x = b then some (.link a) else s.ent x }

-- models: vital/kwiversys/SystemTools.cxx:3294-3297 (CreateSymlink)
def createSymlink (s : FS) (orig new : Str) : Bool × FS := match symlink s (cstr orig) (cstr new) with
  | some s' => (true, s')
  | none => (false, s)

-- models: readlink(2) with a buffer of n characters: the text, cut to n, without a NUL
def readlink (s : FS) (b : Str) (n : Nat) : Option Str := match s.ent b with
  | some (.link t) => some (t.take n)
  | _ => none

-- models: vital/kwiversys/SystemTools.cxx:3306-3323 (ReadSymlink), KWSYS_SYSTEMTOOLS_MAXPATH being PATH_MAX = 4096; the second argument is the
-- variable origName before the call
def readSymlink (s : FS) (new : Str) (origName : Str) : Bool × Str := match readlink s (cstr new) 4096 with
  | some t => (true, cstr t)
  | none => (false, origName)

-- models: unlink(2) by anybody
def unlink (s : FS) (b : Str) : FS := { s with ent := fun x => if x = b then none else s.ent x }

inductive Op where
  | create (orig new : Str)
  | unlink (b : Str)

def step (s : FS) : Op → FS
  | .create a b => (createSymlink s a b).2
  | .unlink b => unlink s b

def run (s : FS) (l : List Op) : FS := l.foldl step s

/-! ### Specification -/

/-- A system whose links can exist: texts that are not empty, shorter than PATH_MAX and without NUL. -/
def Real (s : FS) : Prop := ∀ b t, s.ent b = some (.link t) → t.length < 4096 ∧ nul ∉ t

theorem cstr_nonul (s : Str) : nul ∉ cstr s := by
  unfold cstr
  induction s with
  | nil => simp
  | cons a s ih =>
    rw [List.takeWhile_cons]
    split
    · rename_i h
      rw [List.mem_cons, not_or]
      exact ⟨fun e => by rw [← e] at h; simp at h, ih⟩
    · simp

theorem cstr_self {s : Str} (h : nul ∉ s) : cstr s = s := by
  unfold cstr
  induction s with
  | nil => rfl
  | cons a s ih =>
    rw [List.mem_cons, not_or] at h
    have ha : (a != nul) = true := by simpa using fun e => h.1 e.symm
    rw [List.takeWhile_cons, if_pos ha, ih h.2]

theorem symlink_some {s s' : FS} {a b : Str} (h : symlink s a b = some s') :
    a ≠ [] ∧ a.length < 4096 ∧ s.ent b = none ∧ s' = { s with ent := fun x => if x = b then some (.link a) else s.ent x } := by
  unfold symlink at h
  split at h
  · cases h
  · rename_i hn
    cases h
    simp only [not_or] at hn
    obtain ⟨h1, h2, h3, h4, _⟩ := hn
    refine ⟨h1, by omega, ?_, rfl⟩
    cases he : s.ent b with
    | none => rfl
    | some x => rw [he] at h4; simp at h4

theorem real_step {s : FS} (h : Real s) (o : Op) : Real (step s o) := by
  cases o with
  | create a b =>
    simp only [step, createSymlink]
    cases hs : symlink s (cstr a) (cstr b) with
    | none => exact h
    | some s' =>
      obtain ⟨_, h2, _, rfl⟩ := symlink_some hs
      intro x t hx
      simp only at hx
      split at hx
      · cases hx; exact ⟨h2, cstr_nonul a⟩
      · exact h x t hx
  | unlink b =>
    intro x t hx
    simp only [step, unlink] at hx
    split at hx
    · cases hx
    · exact h x t hx

/-- **C266** (what is read is what was written): when CreateSymlink says true, the name was free, and ReadSymlink of it gives the text given, up to
its first NUL; what all other names give stays as it is; when it says false nothing has changed. -/
theorem C266_create (s : FS) (a b : Str) :
    ((createSymlink s a b).1 = true → s.ent (b.takeWhile (· != nul)) = none ∧
      (∀ o, readSymlink (createSymlink s a b).2 b o = (true, a.takeWhile (· != nul))) ∧
      ∀ c o, c.takeWhile (· != nul) ≠ b.takeWhile (· != nul) → readSymlink (createSymlink s a b).2 c o = readSymlink s c o) ∧
    ((createSymlink s a b).1 = false → (createSymlink s a b).2 = s) := by
  simp only [createSymlink]
  cases hs : symlink s (cstr a) (cstr b) with
  | none => exact ⟨(by intro h; cases h), fun _ => rfl⟩
  | some s' =>
    obtain ⟨_, h2, h3, rfl⟩ := symlink_some hs
    refine ⟨fun _ => ⟨h3, fun o => ?_, fun c o hc => ?_⟩, (by intro h; cases h)⟩
    · simp only [readSymlink, readlink, if_true]
      rw [List.take_of_length_le (by omega), cstr_self (cstr_nonul a)]
      rfl
    · simp only [readSymlink, readlink]
      rw [if_neg (show ¬ cstr c = cstr b from hc)]

/-- **C266** (reading): after any history, ReadSymlink says true exactly for links, and gives their whole text; else the variable keeps its value. -/
theorem C266_read (s : FS) (h : Real s) (l : List Op) (b o : Str) :
    readSymlink (run s l) b o = match (run s l).ent (b.takeWhile (· != nul)) with
      | some (.link t) => (true, t)
      | _ => (false, o) := by
  have hr : Real (run s l) := by
    have : ∀ (l : List Op) (s : FS), Real s → Real (run s l) := by
      intro l
      induction l with
      | nil => intro s h; exact h
      | cons x l ih => intro s h; exact ih _ (real_step h x)
    exact this l s h
  simp only [readSymlink, readlink, cstr]
  cases he : (run s l).ent (b.takeWhile (· != nul)) with
  | none => rfl
  | some e =>
    cases e with
    | other => rfl
    | link t =>
      obtain ⟨h1, h2⟩ := hr _ _ he
      simp only
      rw [List.take_of_length_le (by omega)]
      have := cstr_self h2
      unfold cstr at this
      rw [this]

/-- **C266** (names in use): a second link of the same name fails, and the first one stays. -/
theorem C266_no_overwrite (s : FS) (a b c : Str) (h : (createSymlink s a b).1 = true) :
    (createSymlink (createSymlink s a b).2 c b).1 = false ∧
    ∀ o, readSymlink (createSymlink (createSymlink s a b).2 c b).2 b o = (true, a.takeWhile (· != nul)) := by
  have h1 := (C266_create s a b).1 h
  have hb : ((createSymlink s a b).2.ent (cstr b)).isSome := by
    simp only [createSymlink] at h ⊢
    cases hs : symlink s (cstr a) (cstr b) with
    | none => rw [hs] at h; cases h
    | some s' =>
      obtain ⟨_, _, _, rfl⟩ := symlink_some hs
      simp
  have h2 : (createSymlink (createSymlink s a b).2 c b).1 = false := by
    generalize (createSymlink s a b).2 = s1 at *
    simp only [createSymlink, symlink]
    rw [if_pos (Or.inr (Or.inr (Or.inr (Or.inl hb))))]
  refine ⟨h2, fun o => ?_⟩
  rw [(C266_create _ c b).2 h2]
  exact h1.2.1 o

example : readSymlink (createSymlink ⟨fun _ => none, fun _ => true⟩ (c!"../x") (c!"l")).2 (c!"l") [] = (true, c!"../x") := by decide +kernel

/-! ### The working directory -/

/-- The working directory (the names from the root down), and what a path leads to from a directory. -/
structure Proc where
  cwd : List Str
  resolve : List Str → Str → Option (List Str)

/-- The name of a directory: the root, the names separated by slashes. -/
def pathOf (names : List Str) : Str := '/' :: slashJoin names

-- models: vital/kwiversys/SystemTools.cxx:315-318, 3326-3329 (ChangeDirectory): 0, or -1
def changeDirectory (p : Proc) (d : Str) : Int × Proc := match p.resolve p.cwd (cstr d) with
  | some c => (0, { p with cwd := c })
  | none => (-1, p)

-- models: vital/kwiversys/SystemTools.cxx:310-313 (Getcwd): getcwd fails if the path and its NUL do not fit
def getcwd (p : Proc) (len : Nat) : Option Str := if (pathOf p.cwd).length + 1 ≤ len then some (pathOf p.cwd) else none

-- models: vital/kwiversys/SystemTools.cxx:3331-3345 (GetCurrentWorkingDirectory); CollapseFullPath asks for the working directory in the same way
def currentDir (w : World) (p : Proc) (collapse : Bool) : Str :=
  let path := (getcwd p 2048).getD []
  if collapse = true then (collapseFullPathF w 2 path (getcwd p 2048)).getD [] else path

def chdirs (p : Proc) (l : List Str) : Proc := l.foldl (fun p d => (changeDirectory p d).2) p

/-- Names of files: not empty, not "." or "..", without slash. -/
def FileName (n : Str) : Prop := n ≠ [] ∧ n ≠ (c!".") ∧ n ≠ (c!"..") ∧ '/' ∉ n

/-- Where the calls lead: each that can be resolved from the directory reached so far goes there, the others are without effect. -/
def reached (resolve : List Str → Str → Option (List Str)) (from' : List Str) : List Str → List Str
  | [] => from'
  | d :: l => reached resolve ((resolve from' (d.takeWhile (· != nul))).getD from') l

/-- The full statement: GetCurrentWorkingDirectory gives the name of the directory that the calls of ChangeDirectory led to. -/
def C267_statement : Prop := ∀ (w : World) (p : Proc) (l : List Str) (collapse : Bool), w.translation = [] →
  (∀ n ∈ reached p.resolve p.cwd l, FileName n) → currentDir w (chdirs p l) collapse = pathOf (reached p.resolve p.cwd l)

/-- **C267** (refuted): in a directory whose path has 2048 characters or more, the answer is empty. -/
theorem C267_refuted : ¬ C267_statement := by
  intro h
  have := h {} ⟨List.replicate 20 (List.replicate 200 'a'), fun _ _ => none⟩ [] false rfl (by
    intro n hn
    have hn' : n ∈ List.replicate 20 (List.replicate 200 'a') := hn
    rw [(List.mem_replicate.mp hn').2]
    unfold FileName
    decide +kernel)
  revert this
  decide +kernel

/-- **C267** (refuted in another way): a backslash in a name becomes a slash when the path is collapsed. -/
theorem C267_refuted_backslash : currentDir {} ⟨[c!"a\\b"], fun _ _ => none⟩ true = (c!"/a/b") := by decide +kernel

theorem chdirs_spec (l : List Str) : ∀ (p : Proc), (chdirs p l).cwd = reached p.resolve p.cwd l ∧ (chdirs p l).resolve = p.resolve := by
  induction l with
  | nil => intro p; exact ⟨rfl, rfl⟩
  | cons d l ih =>
    intro p
    have e : chdirs p (d :: l) = chdirs (changeDirectory p d).2 l := rfl
    rw [e]
    obtain ⟨h1, h2⟩ := ih (changeDirectory p d).2
    have hr : (changeDirectory p d).2.resolve = p.resolve := by
      unfold changeDirectory; split <;> rfl
    have hc : (changeDirectory p d).2.cwd = (p.resolve p.cwd (d.takeWhile (· != nul))).getD p.cwd := by
      unfold changeDirectory cstr
      cases p.resolve p.cwd (List.takeWhile (fun c => c != nul) d) <;> rfl
    rw [h1, h2, hr, hc]
    exact ⟨rfl, rfl⟩

/-- **C267** (what holds): so it is when the path has fewer than 2048 characters and no backslash (which matters for collapse only). -/
theorem C267_cwd_partial (w : World) (p : Proc) (l : List Str) (collapse : Bool) (hw : w.translation = [])
    (hn : ∀ n ∈ reached p.resolve p.cwd l, FileName n) (hb : collapse = true → ∀ n ∈ reached p.resolve p.cwd l, '\\' ∉ n)
    (hlen : (pathOf (reached p.resolve p.cwd l)).length < 2048) : currentDir w (chdirs p l) collapse = pathOf (reached p.resolve p.cwd l) := by
  have h1 : getcwd (chdirs p l) 2048 = some (pathOf (reached p.resolve p.cwd l)) := by
    unfold getcwd
    rw [(chdirs_spec l p).1, if_pos (by omega)]
  unfold currentDir
  simp only [h1, Option.getD_some]
  cases collapse with
  | false => rfl
  | true =>
    simp only [if_true]
    have hc : Canonical (pathOf (reached p.resolve p.cwd l)) := by
      refine ⟨c!"/", _, Or.inl rfl, fun n hm => ?_, rfl⟩
      obtain ⟨a1, a2, a3, a4⟩ := hn n hm
      refine ⟨a1, a2, a3, fun c hc => ?_⟩
      have hb' := hb rfl n hm
      simp only [isSlash, Bool.or_eq_false_iff, beq_eq_false_iff_ne]
      exact ⟨fun e => a4 (e ▸ hc), fun e => hb' (e ▸ hc)⟩
    rw [collapse_canonical hw hc 1]
    rfl

/-- **C267** (too deep): else the answer is empty, collapsed or not. -/
theorem C267_deep (w : World) (p : Proc) (collapse : Bool) (hw : w.translation = []) (h : 2048 ≤ (pathOf p.cwd).length) : currentDir w p collapse = [] := by
  have h1 : getcwd p 2048 = none := by unfold getcwd; rw [if_neg (by omega)]
  unfold currentDir
  simp only [h1, Option.getD_none]
  cases collapse with
  | false => rfl
  | true =>
    simp only [if_true]
    unfold collapseFullPathF
    have hs : splitPathF w 2 [] = some [[]] := by
      simp [splitPathF, splitRoot, restComponents]
    rw [hs]
    simp [appendComponents, joinPath, checkTranslationPath]

/-- **C267** (the result): ChangeDirectory gives 0 exactly if the directory can be reached, and else leaves the working directory. -/
theorem C267_result (p : Proc) (d : Str) : ((changeDirectory p d).1 = 0 ↔ ∃ c, p.resolve p.cwd (d.takeWhile (· != nul)) = some c ∧ (changeDirectory p d).2.cwd = c) ∧
    ((changeDirectory p d).1 ≠ 0 → (changeDirectory p d).1 = -1 ∧ (changeDirectory p d).2 = p) := by
  unfold changeDirectory cstr
  cases p.resolve p.cwd (List.takeWhile (fun c => c != nul) d) with
  | none => simp
  | some c => simp

example : currentDir {} (chdirs ⟨[], fun c d => if d = (c!"..") then some c.dropLast else some (c ++ [d])⟩ [c!"usr", c!"lib", c!".."]) true = c!"/usr" := by
  decide +kernel

end Vital.Files.Lnk
