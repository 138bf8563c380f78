import Verif.Regex.Glob
import Mathlib.Data.List.SplitOn
import Mathlib.Data.List.Perm.Subperm
/-
  Model of vital/kwiversys/Glob.cxx (FindFiles, ProcessDirectory, RecurseDirectory); properties C148 (files found) and C149 (recursion).

  The file system is a parameter that does not change during the search. `Relative` is empty (its default). Each search uses the expression
  as compiled; by C122 its result does not depend on earlier searches. `none`: out of the model's steps.
-/
namespace Vital.Glob
open Vital.Regex

abbrev Path := List Nat

/-- What is asked of the file system: names in a directory, is a directory, is a symbolic link, canonical path (or the reason why there is none). -/
structure Fs where
  load : Path → Option (List Path)
  isDir : Path → Bool
  isLink : Path → Bool
  real : Path → Except Path Path
  cwd : Path

-- models: vital/kwiversys/Glob.hxx.in:158-166 (the flags)
structure Opts where
  recurse : Bool
  through : Bool
  listDirs : Bool
  recurseListDirs : Bool

inductive Msg where
  | error (dir reason : Path)
  /-- the visited directories from the first visit on, and the entry not followed -/
  | cyclic (visited : List Path) (entry : Path)
  deriving DecidableEq

structure St where
  files : List Path
  followed : Nat
  visited : List Path
  messages : List Msg
  deriving DecidableEq

-- models: vital/kwiversys/Glob.cxx:545-555 (Glob::AddFile), `Relative` empty
def St.add (s : St) (f : Path) : St := { s with files := s.files ++ [f] }

/-- A search with the expression of a pattern. -/
-- models: vital/kwiversys/Glob.cxx:328-329, 400
def search (fuel : Nat) (p name : Path) : Option Bool := ((expression p).find fuel 1 name).map Prod.snd

-- models: vital/kwiversys/Glob.cxx:240-247, 373-380
def join (start : Nat) (dir name : Path) : Path := if start = 0 then dir ++ name else dir ++ [47] ++ name

/-- One name in RecurseDirectory, and whether to go on. -/
-- models: vital/kwiversys/Glob.cxx:254-333
def recEntry (fs : Fs) (o : Opts) (es : List Path) (fuel : Nat) (rec : Nat → Path → St → Option (St × Bool)) (start : Nat) (dir f : Path) (st : St) : Option (St × Bool) :=
  let q := join start dir f
  if fs.isDir q && (!fs.isLink q || o.through) then
    if fs.isLink q then
      let st := { st with followed := st.followed + 1 }
      match fs.real dir with
      | .error e => some ({ st with messages := st.messages ++ [.error dir e] }, false)
      | .ok c =>
        if c ∉ st.visited then
          let st := if o.recurseListDirs then st.add q else st
          let st := { st with visited := st.visited ++ [c] }
          match rec (start + 1) q st with
          | none => none
          | some (st, b) => some ({ st with visited := st.visited.dropLast }, b)
        else some ({ st with messages := st.messages ++ [.cyclic (st.visited.dropWhile (fun x => x ≠ c)) (c ++ [47] ++ f)] }, true)
    else
      let st := if o.recurseListDirs then st.add q else st
      rec (start + 1) q st
  else
    match es.getLast? with
    | none => some (st, true)
    | some p =>
      match search fuel p f with
      | none => none
      | some b => some (if b then st.add q else st, true)

-- models: vital/kwiversys/Glob.cxx:232-238, 336 (the loop over the names)
def recNames (fs : Fs) (o : Opts) (es : List Path) (fuel : Nat) (rec : Nat → Path → St → Option (St × Bool)) (start : Nat) (dir : Path) : List Path → St → Option (St × Bool)
  | [], st => some (st, true)
  | f :: rest, st =>
    if f = [46] ∨ f = [46, 46] then recNames fs o es fuel rec start dir rest st
    else
      match recEntry fs o es fuel rec start dir f st with
      | none => none
      | some (st, false) => some (st, false)
      | some (st, true) => recNames fs o es fuel rec start dir rest st

-- models: vital/kwiversys/Glob.cxx:221-337 (Glob::RecurseDirectory)
def recDir (fs : Fs) (o : Opts) (es : List Path) : Nat → Nat → Path → St → Option (St × Bool)
  | 0, _, _, _ => none
  | n + 1, start, dir, st =>
    match fs.load dir with
    | none => some (st, true)
    | some names => recNames fs o es n (recDir fs o es n) start dir names st

/-- One name in ProcessDirectory. -/
-- models: vital/kwiversys/Glob.cxx:393-410
def procEntry (fs : Fs) (o : Opts) (es : List Path) (fuel : Nat) (rec : Nat → Path → St → Option St) (start : Nat) (dir f : Path) (st : St) : Option St :=
  let q := join start dir f
  let last : Bool := start + 1 = es.length
  if (!last && !fs.isDir q) || (!o.listDirs && last && fs.isDir q) then some st
  else
    match es[start]? with
    | none => none
    | some p =>
      match search fuel p f with
      | none => none
      | some false => some st
      | some true => if last then some (st.add q) else rec (start + 1) q st

-- models: vital/kwiversys/Glob.cxx:365-371
def procNames (fs : Fs) (o : Opts) (es : List Path) (fuel : Nat) (rec : Nat → Path → St → Option St) (start : Nat) (dir : Path) : List Path → St → Option St
  | [], st => some st
  | f :: rest, st =>
    if f = [46] ∨ f = [46, 46] then procNames fs o es fuel rec start dir rest st
    else (procEntry fs o es fuel rec start dir f st).bind fun st => procNames fs o es fuel rec start dir rest st

/-- (`es.size() - 1` for an empty vector is the greatest number, and no index equals it.) -/
-- models: vital/kwiversys/Glob.cxx:340-412 (Glob::ProcessDirectory)
def procDir (fs : Fs) (o : Opts) (es : List Path) : Nat → Nat → Path → St → Option St
  | 0, _, _, _ => none
  | n + 1, start, dir, st =>
    if start + 1 = es.length ∧ o.recurse = true then (recDir fs o es n start dir st).map Prod.fst
    else if start ≥ es.length then some st
    else
      match fs.load dir with
      | none => some st
      | some names => procNames fs o es n (procDir fs o es n) start dir names st

/-- The loop that looks for the last slash before the first wildcard; `prev` is the character before. -/
-- models: vital/kwiversys/Glob.cxx:430-444
def lastSlash : Nat → Nat → Option Nat → Path → Nat
  | _, acc, _, [] => acc
  | cc, acc, prev, c :: t =>
    let acc := if cc > 0 ∧ c = 47 ∧ prev ≠ some 92 then cc else acc
    if cc > 0 ∧ (c = 91 ∨ c = 63 ∨ c = 42) ∧ prev ≠ some 92 then acc
    else lastSlash (cc + 1) acc (some c) t

-- models: vital/kwiversys/Glob.cxx:445-476
def skipOf (expr : Path) : Nat :=
  let s := lastSlash 0 0 none expr
  if s > 0 then s else if expr.getD 1 0 = 58 ∧ expr.getD 0 0 ≠ 47 then 2 else 0

/-- The parts between slashes that are not empty; `cur` is the part so far. -/
-- models: vital/kwiversys/Glob.cxx:483-503
def parts : Path → Path → List Path
  | cur, [] => if cur ≠ [] then [cur] else []
  | cur, c :: t => if c = 47 then (if cur ≠ [] then [cur] else []) ++ parts [] t else parts (cur ++ [c]) t

-- models: vital/kwiversys/Glob.cxx:422-427
def fullExpr (fs : Fs) (inexpr : Path) : Path :=
  if inexpr.head? = some 126 ∨ inexpr.head? = some 47 then inexpr else fs.cwd ++ [47] ++ inexpr

-- models: vital/kwiversys/Glob.cxx:415-515 (Glob::FindFiles); it always returns true
def findFiles (fs : Fs) (o : Opts) (fuel : Nat) (inexpr : Path) (st : St) : Option St :=
  let expr := fullExpr fs inexpr
  let skip := skipOf expr
  let es := parts [] (expr.drop skip)
  procDir fs o es fuel 0 (if skip > 0 then expr.take skip ++ [47] else [47]) { st with files := [] }

/-! ### Specification -/

/-- A name listed in a directory, other than `.` and `..`. -/
def Listed (fs : Fs) (dir name : Path) : Prop := (∃ names, fs.load dir = some names ∧ name ∈ names) ∧ name ≠ [46] ∧ name ≠ [46, 46]

/-- The name matches the pattern (C147). -/
def Fits (pattern name : Path) : Prop := (expression pattern).isValid = true ∧ ∃ l, Reads pattern l ∧ Matches l name

/-- What a recursive search for names that fit `p` finds in a directory: names that fit and are not directories to enter, the directories if
    they are to be listed, and what is found in the directories entered. A directory that is a link is entered, if links are to be followed,
    unless a link in the same real directory is being followed already. -/
inductive Below (fs : Fs) (o : Opts) (p : Path) : List Path → Nat → Path → Path → Prop where
  | file {v s d n} : Listed fs d n → (fs.isDir (join s d n) = true → fs.isLink (join s d n) = true ∧ o.through = false) → Fits p n →
      Below fs o p v s d (join s d n)
  | dir {v s d n} : Listed fs d n → fs.isDir (join s d n) = true → fs.isLink (join s d n) = false → o.recurseListDirs = true →
      Below fs o p v s d (join s d n)
  | link {v s d n c} : Listed fs d n → fs.isDir (join s d n) = true → fs.isLink (join s d n) = true → o.through = true →
      fs.real d = .ok c → c ∉ v → o.recurseListDirs = true → Below fs o p v s d (join s d n)
  | inDir {v s d n f} : Listed fs d n → fs.isDir (join s d n) = true → fs.isLink (join s d n) = false →
      Below fs o p v (s + 1) (join s d n) f → Below fs o p v s d f
  | inLink {v s d n c f} : Listed fs d n → fs.isDir (join s d n) = true → fs.isLink (join s d n) = true → o.through = true →
      fs.real d = .ok c → c ∉ v → Below fs o p (v ++ [c]) (s + 1) (join s d n) f → Below fs o p v s d f

/-- What is found for a list of patterns, one for each level below a directory. -/
inductive Found (fs : Fs) (o : Opts) (v : List Path) : List Path → Nat → Path → Path → Prop where
  | last {p s d n} : o.recurse = false → Listed fs d n → Fits p n → (fs.isDir (join s d n) = true → o.listDirs = true) →
      Found fs o v [p] s d (join s d n)
  | deep {p s d f} : o.recurse = true → Below fs o p v s d f → Found fs o v [p] s d f
  | more {p q ps s d n f} : Listed fs d n → Fits p n → fs.isDir (join s d n) = true → Found fs o v (q :: ps) (s + 1) (join s d n) f →
      Found fs o v (p :: q :: ps) s d f

/-- The file system is finite: directories that are not links get deeper, up to a limit, and (if links are followed) there are only finitely
    many canonical paths; every directory that can be read has one. -/
structure Finite (fs : Fs) (o : Opts) where
  depth : Path → Nat
  limit : Nat
  reals : List Path
  deeper : ∀ s d n, Listed fs d n → fs.isDir (join s d n) = true → fs.isLink (join s d n) = false → depth d < depth (join s d n)
  limited : ∀ d, depth d ≤ limit
  canon : o.through = true → ∀ d names, fs.load d = some names → ∃ c, fs.real d = .ok c ∧ c ∈ reals

/-! ### Proof: one search -/

theorem search_spec {p : Path} (h0 : 0 ∉ p) (name : Path) : ∃ N b, (∀ fuel, N ≤ fuel → search fuel p name = some b) ∧ (b = true ↔ Fits p name) := by
  obtain ⟨o, b, ⟨N, h1⟩, h2⟩ := (C147_find p h0).2 1 name
  exact ⟨N, b, fun fuel hf => by simp [search, h1 fuel hf], h2⟩

/-! ### Recursion -/

/-- Directory listings have each name once, and no empty names or names with a slash. -/
def Tidy (fs : Fs) : Prop := ∀ d names, fs.load d = some names → names.Nodup ∧ ∀ n ∈ names, n ≠ [] ∧ 47 ∉ n

/-- The new files are those of a property, each once if `T`. -/
def Adds (T : Prop) (st st' : St) (P : Path → Prop) : Prop := ∃ new, st'.files = st.files ++ new ∧ (T → new.Nodup) ∧ ∀ f, f ∈ new ↔ P f

theorem Adds.trans {T : Prop} {a b c : St} {P Q : Path → Prop} (h1 : Adds T a b P) (h2 : Adds T b c Q) (hd : T → ∀ f, P f → ¬ Q f) : Adds T a c (fun f => P f ∨ Q f) := by
  obtain ⟨n1, e1, d1, m1⟩ := h1
  obtain ⟨n2, e2, d2, m2⟩ := h2
  refine ⟨n1 ++ n2, by rw [e2, e1, List.append_assoc], fun t => ?_, fun f => by rw [List.mem_append, m1, m2]⟩
  rw [List.nodup_append]
  refine ⟨d1 t, d2 t, ?_⟩
  rintro x hx _ hy rfl
  exact hd t x ((m1 x).1 hx) ((m2 x).1 hy)

theorem Adds.congr {T : Prop} {a b : St} {P Q : Path → Prop} (h : Adds T a b P) (hpq : ∀ f, P f ↔ Q f) : Adds T a b Q := by
  obtain ⟨n, e, d, m⟩ := h
  exact ⟨n, e, d, fun f => (m f).trans (hpq f)⟩

theorem Adds.none {T : Prop} {a b : St} (h : b.files = a.files) : Adds T a b (fun _ => False) := ⟨[], by rw [h]; simp, by simp, by simp⟩

theorem Adds.one {T : Prop} {a : St} (q : Path) : Adds T a (a.add q) (fun f => f = q) := ⟨[q], rfl, by simp, by simp⟩

/-- At the path or inside. -/
def At (q f : Path) : Prop := f = q ∨ ∃ y, f = q ++ 47 :: y

theorem At.sub {s : Nat} {q n f : Path} (h : At (join (s + 1) q n) f) : f ≠ q ∧ At q f := by
  have e : join (s + 1) q n = q ++ 47 :: n := by simp [join]
  rw [e] at h
  have : ∃ y, f = q ++ 47 :: y := by
    rcases h with rfl | ⟨y, rfl⟩
    · exact ⟨n, rfl⟩
    · exact ⟨n ++ 47 :: y, by simp⟩
  obtain ⟨y, rfl⟩ := this
  refine ⟨fun h => ?_, .inr ⟨y, rfl⟩⟩
  have := congrArg List.length h
  simp at this

theorem cut47 {n m x y : Path} (hn : 47 ∉ n) (hm : 47 ∉ m) (hx : x = [] ∨ ∃ z, x = 47 :: z) (hy : y = [] ∨ ∃ z, y = 47 :: z) (h : n ++ x = m ++ y) : n = m := by
  induction n generalizing m with
  | nil =>
    cases m with
    | nil => rfl
    | cons c m =>
      rcases hx with rfl | ⟨z, rfl⟩
      · cases h
      · simp only [List.nil_append, List.cons_append, List.cons.injEq] at h
        simp [← h.1] at hm
  | cons c n ih =>
    cases m with
    | nil =>
      rcases hy with rfl | ⟨z, rfl⟩
      · cases h
      · simp only [List.nil_append, List.cons_append, List.cons.injEq] at h
        simp [h.1] at hn
    | cons d m =>
      simp only [List.cons_append, List.cons.injEq] at h
      rw [h.1, ih (fun h => hn (List.mem_cons_of_mem _ h)) (fun h => hm (List.mem_cons_of_mem _ h)) h.2]

theorem At.apart {s : Nat} {d n m f : Path} (hn : 47 ∉ n) (hm : 47 ∉ m) (h1 : At (join s d n) f) (h2 : At (join s d m) f) : n = m := by
  have key : ∀ {k : Path}, At (join s d k) f → ∃ x, f = join s d k ++ x ∧ (x = [] ∨ ∃ z, x = 47 :: z) := by
    intro k h
    rcases h with h | ⟨y, h⟩
    · exact ⟨[], by simp [h], .inl rfl⟩
    · exact ⟨_, h, .inr ⟨y, rfl⟩⟩
  obtain ⟨x, e1, hx⟩ := key h1
  obtain ⟨y, e2, hy⟩ := key h2
  rw [e1] at e2
  unfold join at e2
  split at e2
  · rw [List.append_assoc, List.append_assoc] at e2
    exact cut47 hn hm hx hy (List.append_cancel_left e2)
  · simp only [List.append_assoc] at e2
    exact cut47 hn hm hx hy (List.append_cancel_left (List.append_cancel_left e2))

theorem below_at {fs : Fs} {o : Opts} {p : Path} {v : List Path} {s : Nat} {d f : Path} (h : Below fs o p v s d f) : ∃ n, At (join s d n) f := by
  induction h with
  | file _ _ _ => exact ⟨_, .inl rfl⟩
  | dir _ _ _ _ => exact ⟨_, .inl rfl⟩
  | link _ _ _ _ _ _ _ => exact ⟨_, .inl rfl⟩
  | inDir _ _ _ _ ih => obtain ⟨n, h⟩ := ih; exact ⟨_, h.sub.2⟩
  | inLink _ _ _ _ _ _ _ ih => obtain ⟨n, h⟩ := ih; exact ⟨_, h.sub.2⟩

theorem found_at {fs : Fs} {o : Opts} {ps : List Path} {v : List Path} {s : Nat} {d f : Path} (h : Found fs o v ps s d f) : ∃ n, At (join s d n) f := by
  induction h with
  | last _ _ _ _ => exact ⟨_, .inl rfl⟩
  | deep _ h => exact below_at h
  | more _ _ _ _ ih => obtain ⟨n, h⟩ := ih; exact ⟨_, h.sub.2⟩

/-- What the entry `n` contributes. -/
inductive BelowAt (fs : Fs) (o : Opts) (p : Path) (v : List Path) (s : Nat) (d n : Path) : Path → Prop where
  | file : (fs.isDir (join s d n) = true → fs.isLink (join s d n) = true ∧ o.through = false) → Fits p n →
      BelowAt fs o p v s d n (join s d n)
  | dir : fs.isDir (join s d n) = true → fs.isLink (join s d n) = false → o.recurseListDirs = true →
      BelowAt fs o p v s d n (join s d n)
  | link {c} : fs.isDir (join s d n) = true → fs.isLink (join s d n) = true → o.through = true →
      fs.real d = .ok c → c ∉ v → o.recurseListDirs = true → BelowAt fs o p v s d n (join s d n)
  | inDir {f} : fs.isDir (join s d n) = true → fs.isLink (join s d n) = false →
      Below fs o p v (s + 1) (join s d n) f → BelowAt fs o p v s d n f
  | inLink {c f} : fs.isDir (join s d n) = true → fs.isLink (join s d n) = true → o.through = true →
      fs.real d = .ok c → c ∉ v → Below fs o p (v ++ [c]) (s + 1) (join s d n) f → BelowAt fs o p v s d n f

theorem below_iff {fs : Fs} {o : Opts} {p : Path} {v : List Path} {s : Nat} {d f : Path} :
    Below fs o p v s d f ↔ ∃ n, Listed fs d n ∧ BelowAt fs o p v s d n f := by
  constructor
  · intro h
    cases h with
    | file h1 h2 h3 => exact ⟨_, h1, .file h2 h3⟩
    | dir h1 h2 h3 h4 => exact ⟨_, h1, .dir h2 h3 h4⟩
    | link h1 h2 h3 h4 h5 h6 h7 => exact ⟨_, h1, .link h2 h3 h4 h5 h6 h7⟩
    | inDir h1 h2 h3 h4 => exact ⟨_, h1, .inDir h2 h3 h4⟩
    | inLink h1 h2 h3 h4 h5 h6 h7 => exact ⟨_, h1, .inLink h2 h3 h4 h5 h6 h7⟩
  · rintro ⟨n, h1, h⟩
    cases h with
    | file h2 h3 => exact .file h1 h2 h3
    | dir h2 h3 h4 => exact .dir h1 h2 h3 h4
    | link h2 h3 h4 h5 h6 h7 => exact .link h1 h2 h3 h4 h5 h6 h7
    | inDir h2 h3 h4 => exact .inDir h1 h2 h3 h4
    | inLink h2 h3 h4 h5 h6 h7 => exact .inLink h1 h2 h3 h4 h5 h6 h7

theorem belowAt_at {fs : Fs} {o : Opts} {p : Path} {v : List Path} {s : Nat} {d n f : Path} (h : BelowAt fs o p v s d n f) : At (join s d n) f := by
  cases h with
  | file _ _ => exact .inl rfl
  | dir _ _ _ => exact .inl rfl
  | link _ _ _ _ _ _ => exact .inl rfl
  | inDir _ _ h => obtain ⟨n, h⟩ := below_at h; exact h.sub.2
  | inLink _ _ _ _ _ h => obtain ⟨n, h⟩ := below_at h; exact h.sub.2

/-- What is to be shown of a call. -/
def RecOk (fs : Fs) (o : Opts) (es : List Path) (p : Path) (v : List Path) (s : Nat) (d : Path) : Prop :=
  ∀ st : St, st.visited = v → ∃ N st', (∀ n, N ≤ n → recDir fs o es n s d st = some (st', true)) ∧ st'.visited = v ∧
    Adds (Tidy fs) st st' (Below fs o p v s d)

theorem recEntry_ok {fs : Fs} {o : Opts} {es : List Path} {p : Path} (hp : es.getLast? = some p) (h0 : 0 ∉ p) (fin : Finite fs o) {v : List Path} {s : Nat} {d n : Path}
    (hn : Listed fs d n)
    (hdir : fs.isDir (join s d n) = true → fs.isLink (join s d n) = false → RecOk fs o es p v (s + 1) (join s d n))
    (hlink : ∀ c, fs.isDir (join s d n) = true → o.through = true → fs.real d = .ok c → c ∉ v → RecOk fs o es p (v ++ [c]) (s + 1) (join s d n))
    (st : St) (hv : st.visited = v) :
    ∃ N st', (∀ k, N ≤ k → recEntry fs o es k (recDir fs o es k) s d n st = some (st', true)) ∧ st'.visited = v ∧ Adds (Tidy fs) st st' (BelowAt fs o p v s d n) := by
  by_cases h1 : (fs.isDir (join s d n) && (!fs.isLink (join s d n) || o.through)) = true
  · have hd : fs.isDir (join s d n) = true := by rw [Bool.and_eq_true] at h1; exact h1.1
    by_cases hl : fs.isLink (join s d n) = true
    · have ht : o.through = true := by simpa [hd, hl] using h1
      obtain ⟨names, hnames, -⟩ := hn.1
      obtain ⟨c, hc, -⟩ := fin.canon ht d names hnames
      by_cases hcv : c ∉ v
      · -- follow the link
        let st1 : St := { st with followed := st.followed + 1 }
        let st2 : St := if o.recurseListDirs then st1.add (join s d n) else st1
        let st3 : St := { st2 with visited := st2.visited ++ [c] }
        have hv2 : st2.visited = v := by simp only [st2]; split <;> simp [St.add, st1, hv]
        obtain ⟨N, st', g1, g2, g3⟩ := hlink c hd ht hc hcv st3 (by simp [st3, hv2])
        refine ⟨N, { st' with visited := st'.visited.dropLast }, fun k hk => ?_, by simp [g2], ?_⟩
        · have := g1 k hk
          unfold recEntry
          dsimp only
          rw [if_pos h1, if_pos hl, hc]
          dsimp only
          rw [if_pos (by rw [hv]; exact hcv)]
          change (match recDir fs o es k (s + 1) (join s d n) st3 with
            | none => none
            | some (st, b) => some ({ st with visited := st.visited.dropLast }, b)) = _
          rw [this]
        · have a1 : Adds (Tidy fs) st st2 (fun f => o.recurseListDirs = true ∧ f = join s d n) := by
            simp only [st2]
            by_cases hr : o.recurseListDirs = true
            · rw [if_pos hr]; exact (Adds.one (a := st) _).congr (by simp [hr])
            · rw [if_neg hr]; exact (Adds.none (by rfl)).congr (by simp [hr])
          have a2 : Adds (Tidy fs) st2 { st' with visited := st'.visited.dropLast } (Below fs o p (v ++ [c]) (s + 1) (join s d n)) := g3
          refine (a1.trans a2 (fun _ f h1 h2 => by obtain ⟨m, h2⟩ := below_at h2; exact h2.sub.1 h1.2)).congr fun f => ?_
          constructor
          · rintro (⟨h, rfl⟩ | h)
            · exact .link hd hl ht hc hcv h
            · exact .inLink hd hl ht hc hcv h
          · intro h
            cases h with
            | file h _ => have := (h hd).2; rw [ht] at this; cases this
            | dir _ h _ => rw [hl] at h; cases h
            | link _ _ _ _ _ h => exact .inl ⟨h, rfl⟩
            | inDir _ h _ => rw [hl] at h; cases h
            | inLink _ _ _ h5 _ h => rw [hc] at h5; cases h5; exact .inr h
      · have hcv : c ∈ v := Classical.not_not.1 hcv
        refine ⟨0, { st with followed := st.followed + 1, messages := st.messages ++ [.cyclic (st.visited.dropWhile (fun x => x ≠ c)) (c ++ [47] ++ n)] }, fun k _ => ?_, hv, ?_⟩
        · unfold recEntry
          dsimp only
          rw [if_pos h1, if_pos hl, hc]
          dsimp only
          rw [if_neg (by rw [hv]; exact fun h => h hcv)]
        refine (Adds.none (by rfl)).congr fun f => ⟨fun h => h.elim, fun h => ?_⟩
        cases h with
        | file h _ => have := (h hd).2; rw [ht] at this; cases this
        | dir _ h _ => rw [hl] at h; cases h
        | link _ _ _ h5 h6 _ => rw [hc] at h5; cases h5; exact h6 hcv
        | inDir _ h _ => rw [hl] at h; cases h
        | inLink _ _ _ h5 h6 _ => rw [hc] at h5; cases h5; exact h6 hcv
    · have hl : fs.isLink (join s d n) = false := by simpa using hl
      let st2 : St := if o.recurseListDirs then st.add (join s d n) else st
      have hv2 : st2.visited = v := by simp only [st2]; split <;> simp [St.add, hv]
      obtain ⟨N, st', g1, g2, g3⟩ := hdir hd hl st2 hv2
      refine ⟨N, st', fun k hk => ?_, g2, ?_⟩
      · have := g1 k hk
        unfold recEntry
        dsimp only
        rw [if_pos h1, if_neg (by rw [hl]; decide)]
        exact this
      · have a1 : Adds (Tidy fs) st st2 (fun f => o.recurseListDirs = true ∧ f = join s d n) := by
          simp only [st2]
          by_cases hr : o.recurseListDirs = true
          · rw [if_pos hr]; exact (Adds.one (a := st) _).congr (by simp [hr])
          · rw [if_neg hr]; exact (Adds.none (by rfl)).congr (by simp [hr])
        refine (a1.trans g3 (fun _ f h1 h2 => by obtain ⟨m, h2⟩ := below_at h2; exact h2.sub.1 h1.2)).congr fun f => ?_
        constructor
        · rintro (⟨h, rfl⟩ | h)
          · exact .dir hd hl h
          · exact .inDir hd hl h
        · intro h
          cases h with
          | file h _ => have := (h hd).1; rw [hl] at this; cases this
          | dir _ _ h => exact .inl ⟨h, rfl⟩
          | link _ h _ _ _ _ => rw [hl] at h; cases h
          | inDir _ _ h => exact .inr h
          | inLink _ h _ _ _ _ => rw [hl] at h; cases h
  · obtain ⟨N, b, g1, g2⟩ := search_spec h0 n
    have hno : fs.isDir (join s d n) = true → fs.isLink (join s d n) = true ∧ o.through = false := by
      intro hd
      rw [hd] at h1
      simpa using h1
    refine ⟨N, if b then st.add (join s d n) else st, fun k hk => ?_, by split <;> exact hv, ?_⟩
    · simp only [recEntry, h1, ↓reduceIte, hp, g1 k hk, Bool.false_eq_true]
    · have a1 : Adds (Tidy fs) st (if b then st.add (join s d n) else st) (fun f => b = true ∧ f = join s d n) := by
        cases b
        · exact (Adds.none (by rfl)).congr (by simp)
        · exact (Adds.one (a := st) _).congr (by simp)
      refine a1.congr fun f => ?_
      rw [g2]
      constructor
      · rintro ⟨h, rfl⟩; exact .file hno h
      · intro h
        cases h with
        | file _ h => exact ⟨h, rfl⟩
        | dir h h' _ => rw [hno h |>.1] at h'; cases h'
        | link h _ h' _ _ _ => rw [hno h |>.2] at h'; cases h'
        | inDir h h' _ => rw [hno h |>.1] at h'; cases h'
        | inLink h _ h' _ _ _ => rw [hno h |>.2] at h'; cases h'

theorem recNames_ok {fs : Fs} {o : Opts} {es : List Path} {p : Path} {v : List Path} {s : Nat} {d : Path} (names : List Path)
    (htidy : Tidy fs → names.Nodup ∧ ∀ n ∈ names, 47 ∉ n)
    (hent : ∀ n ∈ names, n ≠ [46] → n ≠ [46, 46] → ∀ st : St, st.visited = v →
      ∃ N st', (∀ k, N ≤ k → recEntry fs o es k (recDir fs o es k) s d n st = some (st', true)) ∧ st'.visited = v ∧ Adds (Tidy fs) st st' (BelowAt fs o p v s d n))
    (st : St) (hv : st.visited = v) :
    ∃ N st', (∀ k, N ≤ k → recNames fs o es k (recDir fs o es k) s d names st = some (st', true)) ∧ st'.visited = v ∧
      Adds (Tidy fs) st st' (fun f => ∃ n ∈ names, n ≠ [46] ∧ n ≠ [46, 46] ∧ BelowAt fs o p v s d n f) := by
  induction names generalizing st with
  | nil => exact ⟨0, st, fun _ _ => rfl, hv, (Adds.none rfl).congr (by simp)⟩
  | cons n names ih =>
    have ih := ih (fun t => ⟨(List.nodup_cons.1 (htidy t).1).2, fun m hm => (htidy t).2 m (List.mem_cons_of_mem _ hm)⟩) (fun m hm => hent m (List.mem_cons_of_mem _ hm))
    by_cases hd : n = [46] ∨ n = [46, 46]
    · obtain ⟨N, st', g1, g2, g3⟩ := ih st hv
      refine ⟨N, st', fun k hk => by simp only [recNames, hd, ↓reduceIte]; exact g1 k hk, g2, g3.congr fun f => ?_⟩
      constructor
      · rintro ⟨m, h1, h2⟩; exact ⟨m, List.mem_cons_of_mem _ h1, h2⟩
      · rintro ⟨m, h1, h2, h3, h4⟩
        rcases List.mem_cons.1 h1 with rfl | h1
        · rcases hd with h | h
          · exact absurd h h2
          · exact absurd h h3
        · exact ⟨m, h1, h2, h3, h4⟩
    · rw [not_or] at hd
      obtain ⟨N1, st1, e1, e2, e3⟩ := hent n List.mem_cons_self hd.1 hd.2 st hv
      obtain ⟨N, st', g1, g2, g3⟩ := ih st1 e2
      refine ⟨max N1 N, st', fun k hk => ?_, g2, (e3.trans g3 (by
        rintro t f h1 ⟨m, h2, -, -, h3⟩
        have := (belowAt_at h1).apart ((htidy t).2 n List.mem_cons_self) ((htidy t).2 m (List.mem_cons_of_mem _ h2)) (belowAt_at h3)
        subst this
        exact (List.nodup_cons.1 (htidy t).1).1 h2)).congr fun f => ?_⟩
      · simp only [recNames, hd, or_self, ↓reduceIte, e1 k (by omega), g1 k (by omega)]
      · constructor
        · rintro (h | ⟨m, h1, h2⟩)
          · exact ⟨n, List.mem_cons_self, hd.1, hd.2, h⟩
          · exact ⟨m, List.mem_cons_of_mem _ h1, h2⟩
        · rintro ⟨m, h1, h2, h3, h4⟩
          rcases List.mem_cons.1 h1 with rfl | h1
          · exact .inl h4
          · exact .inr ⟨m, h1, h2, h3, h4⟩

theorem recDir_ok {fs : Fs} {o : Opts} {es : List Path} {p : Path} (hp : es.getLast? = some p) (h0 : 0 ∉ p) (fin : Finite fs o) :
    ∀ (a b : Nat) (v : List Path) (s : Nat) (d : Path), (o.through = true → v.Nodup ∧ v ⊆ fin.reals) → fin.reals.length - v.length ≤ a →
      fin.limit - fin.depth d ≤ b → RecOk fs o es p v s d := by
  intro a
  induction a using Nat.strongRecOn with
  | _ a iha =>
  intro b
  induction b using Nat.strongRecOn with
  | _ b ihb =>
  intro v s d hv ha hb st hst
  cases hload : fs.load d with
  | none =>
    refine ⟨1, st, fun n hn => ?_, hst, (Adds.none rfl).congr fun f => ⟨fun h => h.elim, fun h => ?_⟩⟩
    · cases n with
      | zero => omega
      | succ n => simp only [recDir, hload]
    · obtain ⟨n, ⟨⟨names, h1, -⟩, -⟩, -⟩ := below_iff.1 h
      rw [hload] at h1; cases h1
  | some names =>
    obtain ⟨N, st', g1, g2, g3⟩ := recNames_ok (fs := fs) (o := o) (es := es) (p := p) (v := v) (s := s) (d := d) names (fun t => ⟨(t d names hload).1, fun n hn => ((t d names hload).2 n hn).2⟩) (by
      intro n hn hd1 hd2 st hst
      have hli : Listed fs d n := ⟨⟨names, hload, hn⟩, hd1, hd2⟩
      refine recEntry_ok hp h0 fin hli ?_ ?_ st hst
      · intro h1 h2
        have h3 := fin.deeper s d n hli h1 h2
        have h4 := fin.limited (join s d n)
        exact ihb (fin.limit - fin.depth (join s d n)) (by omega) v (s + 1) _ hv ha (Nat.le_refl _)
      · intro c h1 h2 h3 h4
        obtain ⟨hv1, hv2⟩ := hv h2
        obtain ⟨c', e1, e2⟩ := fin.canon h2 d names hload
        rw [h3] at e1; cases e1
        have hn : (v ++ [c]).Nodup := by
          rw [List.nodup_append]
          refine ⟨hv1, by simp, ?_⟩
          intro x hx y hy
          rw [List.mem_singleton.1 hy]
          rintro rfl
          exact h4 hx
        have hs : (v ++ [c]) ⊆ fin.reals := by
          intro x hx
          rcases List.mem_append.1 hx with hx | hx
          · exact hv2 hx
          · rw [List.mem_singleton.1 hx]; exact e2
        have hl := (List.subperm_of_subset hn hs).length_le
        rw [List.length_append, List.length_singleton] at hl
        exact iha (fin.reals.length - (v ++ [c]).length) (by rw [List.length_append, List.length_singleton]; omega) _ _ _ _ (fun _ => ⟨hn, hs⟩) (Nat.le_refl _) (Nat.le_refl _)) st hst
    refine ⟨N + 1, st', fun n hn => ?_, g2, g3.congr fun f => ?_⟩
    · cases n with
      | zero => omega
      | succ n => simp only [recDir, hload]; exact g1 n (by omega)
    · rw [below_iff]
      constructor
      · rintro ⟨n, h1, h2, h3, h4⟩; exact ⟨n, ⟨⟨names, hload, h1⟩, h2, h3⟩, h4⟩
      · rintro ⟨n, ⟨⟨names', e, h1⟩, h2, h3⟩, h4⟩
        rw [hload] at e; cases e
        exact ⟨n, h1, h2, h3, h4⟩

/-! ### The levels -/

theorem procDir_ok {fs : Fs} {o : Opts} (es : List Path) (h0 : ∀ p ∈ es, 0 ∉ p) (v : List Path)
    (hrec : o.recurse = true → ∀ p s d, es.getLast? = some p → 0 ∉ p → RecOk fs o es p v s d) :
    ∀ (k s : Nat) (d : Path) (st : St), es.length ≤ s + k → st.visited = v → ∃ N st', (∀ n, N ≤ n → procDir fs o es n s d st = some st') ∧ st'.visited = v ∧
      Adds (Tidy fs) st st' (Found fs o v (es.drop s) s d) := by
  intro k
  induction k with
  | zero =>
    intro s d st hk hst
    refine ⟨1, st, fun n hn => ?_, hst, (Adds.none rfl).congr fun f => ⟨fun h => h.elim, fun h => ?_⟩⟩
    · cases n with
      | zero => omega
      | succ n =>
        unfold procDir
        rw [if_neg (by omega), if_pos (by omega)]
    · rw [List.drop_eq_nil_of_le (by omega)] at h; cases h
  | succ k ih =>
    intro s d st hk hst
    by_cases hs : es.length ≤ s
    · refine ⟨1, st, fun n hn => ?_, hst, (Adds.none rfl).congr fun f => ⟨fun h => h.elim, fun h => ?_⟩⟩
      · cases n with
        | zero => omega
        | succ n =>
          unfold procDir
          rw [if_neg (by omega), if_pos (by omega)]
      · rw [List.drop_eq_nil_of_le (by omega)] at h; cases h
    · have hlt : s < es.length := by omega
      have hdrop : es.drop s = es[s] :: es.drop (s + 1) := List.drop_eq_getElem_cons hlt
      have hp0 : 0 ∉ es[s] := h0 _ (List.getElem_mem hlt)
      by_cases hr : s + 1 = es.length ∧ o.recurse = true
      · have hnil : es.drop (s + 1) = [] := List.drop_eq_nil_of_le (by omega)
        have hlast : es.getLast? = some es[s] := by
          rw [List.getLast?_eq_getElem?, ← hr.1, Nat.add_sub_cancel, List.getElem?_eq_getElem hlt]
        obtain ⟨N, st', g1, g2, g3⟩ := hrec hr.2 _ s d hlast hp0 st hst
        refine ⟨N + 1, st', fun n hn => ?_, g2, g3.congr fun f => ?_⟩
        · cases n with
          | zero => omega
          | succ n =>
            unfold procDir
            rw [if_pos hr, g1 n (by omega)]; rfl
        · rw [hdrop, hnil]
          constructor
          · intro h; exact .deep hr.2 h
          · intro h
            cases h with
            | last h _ _ _ => rw [hr.2] at h; cases h
            | deep _ h => exact h
      · cases hload : fs.load d with
        | none =>
          refine ⟨1, st, fun n hn => ?_, hst, (Adds.none rfl).congr fun f => ⟨fun h => h.elim, fun h => ?_⟩⟩
          · cases n with
            | zero => omega
            | succ n =>
              unfold procDir
              rw [if_neg hr, if_neg (by omega), hload]
          · have : ¬ ∃ n, Listed fs d n := by rintro ⟨n, ⟨names, h1, -⟩, -⟩; rw [hload] at h1; cases h1
            rw [hdrop] at h
            generalize es.drop (s + 1) = rest at h
            cases h with
            | last _ h _ _ => exact this ⟨_, h⟩
            | deep _ h => obtain ⟨n, h, -⟩ := below_iff.1 h; exact this ⟨_, h⟩
            | more h _ _ _ => exact this ⟨_, h⟩
        | some names =>
          -- one name
          let Here : Path → Path → Prop := fun n f => Fits es[s] n ∧
            if s + 1 = es.length then f = join s d n ∧ (fs.isDir (join s d n) = true → o.listDirs = true)
            else fs.isDir (join s d n) = true ∧ Found fs o v (es.drop (s + 1)) (s + 1) (join s d n) f
          have ent : ∀ n, ∀ st : St, st.visited = v → ∃ N st', (∀ k, N ≤ k → procEntry fs o es k (procDir fs o es k) s d n st = some st') ∧ st'.visited = v ∧ Adds (Tidy fs) st st' (Here n) := by
            intro n st hst
            obtain ⟨N, b, g1, g2⟩ := search_spec hp0 n
            by_cases hlast : s + 1 = es.length
            · by_cases hskip : o.listDirs = false ∧ fs.isDir (join s d n) = true
              · refine ⟨0, st, fun k _ => ?_, hst, (Adds.none rfl).congr fun f => ⟨fun h => h.elim, fun h => ?_⟩⟩
                · unfold procEntry
                  dsimp only
                  rw [if_pos (by simp [hlast, hskip])]
                · simp only [Here, hlast, ↓reduceIte] at h
                  have := h.2.2 hskip.2
                  rw [hskip.1] at this; cases this
              · refine ⟨N, if b then st.add (join s d n) else st, fun k hk => ?_, by split <;> exact hst, ?_⟩
                · unfold procEntry
                  dsimp only
                  rw [if_neg (by simpa [hlast] using hskip), List.getElem?_eq_getElem hlt]
                  dsimp only
                  rw [g1 k hk]
                  cases b <;> simp [hlast]
                · have a1 : Adds (Tidy fs) st (if b then st.add (join s d n) else st) (fun f => b = true ∧ f = join s d n) := by
                    cases b
                    · exact (Adds.none (by rfl)).congr (by simp)
                    · exact (Adds.one (a := st) _).congr (by simp)
                  refine a1.congr fun f => ?_
                  simp only [Here, hlast, ↓reduceIte]
                  rw [g2]
                  constructor
                  · rintro ⟨h1, h2⟩
                    refine ⟨h1, h2, fun h3 => ?_⟩
                    cases hld : o.listDirs with
                    | true => rfl
                    | false => exact absurd ⟨hld, h3⟩ hskip
                  · rintro ⟨h1, h2, -⟩; exact ⟨h1, h2⟩
            · by_cases hdir : fs.isDir (join s d n) = true
              · obtain ⟨N2, st2, f1, f2, f3⟩ := ih (s + 1) (join s d n) st (by omega) hst
                cases b with
                | false =>
                  refine ⟨N, st, fun k hk => ?_, hst, (Adds.none rfl).congr fun f => ⟨fun h => h.elim, fun h => ?_⟩⟩
                  · unfold procEntry
                    dsimp only
                    rw [if_neg (by simp [hlast, hdir]), List.getElem?_eq_getElem hlt]
                    dsimp only
                    rw [g1 k hk]
                  · have := g2.2 h.1; cases this
                | true =>
                  refine ⟨max N N2, st2, fun k hk => ?_, f2, f3.congr fun f => ?_⟩
                  · unfold procEntry
                    dsimp only
                    rw [if_neg (by simp [hlast, hdir]), List.getElem?_eq_getElem hlt]
                    dsimp only
                    rw [g1 k (by omega)]
                    simp only [hlast, decide_false, Bool.false_eq_true, ↓reduceIte]
                    exact f1 k (by omega)
                  · simp only [Here, hlast, ↓reduceIte]
                    exact ⟨fun h => ⟨g2.1 rfl, hdir, h⟩, fun h => h.2.2⟩
              · refine ⟨0, st, fun k _ => ?_, hst, (Adds.none rfl).congr fun f => ⟨fun h => h.elim, fun h => ?_⟩⟩
                · unfold procEntry
                  dsimp only
                  rw [if_pos (by simp [hlast, hdir])]
                · simp only [Here, hlast, ↓reduceIte] at h
                  exact hdir h.2.1
          -- all names
          have here : ∀ n f, Here n f → At (join s d n) f := by
            intro n f h
            by_cases hlast : s + 1 = es.length
            · simp only [Here, hlast, ↓reduceIte] at h; exact .inl h.2.1
            · simp only [Here, hlast, ↓reduceIte] at h
              obtain ⟨m, h⟩ := found_at h.2.2
              exact h.sub.2
          have all : ∀ (l : List Path) (st : St), (Tidy fs → l.Nodup ∧ ∀ n ∈ l, 47 ∉ n) → st.visited = v → ∃ N st', (∀ k, N ≤ k → procNames fs o es k (procDir fs o es k) s d l st = some st') ∧ st'.visited = v ∧
              Adds (Tidy fs) st st' (fun f => ∃ n ∈ l, n ≠ [46] ∧ n ≠ [46, 46] ∧ Here n f) := by
            intro l
            induction l with
            | nil => intro st _ hst; exact ⟨0, st, fun _ _ => rfl, hst, (Adds.none rfl).congr (by simp)⟩
            | cons n l ihl =>
              intro st htidy hst
              have ihl := fun st => ihl st (fun t => ⟨(List.nodup_cons.1 (htidy t).1).2, fun m hm => (htidy t).2 m (List.mem_cons_of_mem _ hm)⟩)
              by_cases hd : n = [46] ∨ n = [46, 46]
              · obtain ⟨N, st', g1, g2, g3⟩ := ihl st hst
                refine ⟨N, st', fun k hk => by simp only [procNames, hd, ↓reduceIte]; exact g1 k hk, g2, g3.congr fun f => ?_⟩
                constructor
                · rintro ⟨m, h1, h2⟩; exact ⟨m, List.mem_cons_of_mem _ h1, h2⟩
                · rintro ⟨m, h1, h2, h3, h4⟩
                  rcases List.mem_cons.1 h1 with rfl | h1
                  · rcases hd with h | h
                    · exact absurd h h2
                    · exact absurd h h3
                  · exact ⟨m, h1, h2, h3, h4⟩
              · rw [not_or] at hd
                obtain ⟨N1, st1, e1, e2, e3⟩ := ent n st hst
                obtain ⟨N, st', g1, g2, g3⟩ := ihl st1 e2
                refine ⟨max N1 N, st', fun k hk => ?_, g2, (e3.trans g3 (by
                  rintro t f h1 ⟨m, h2, -, -, h3⟩
                  have := (here n f h1).apart ((htidy t).2 n List.mem_cons_self) ((htidy t).2 m (List.mem_cons_of_mem _ h2)) (here m f h3)
                  subst this
                  exact (List.nodup_cons.1 (htidy t).1).1 h2)).congr fun f => ?_⟩
                · simp only [procNames, hd, or_self, ↓reduceIte, e1 k (by omega), Option.bind_some, g1 k (by omega)]
                · constructor
                  · rintro (h | ⟨m, h1, h2⟩)
                    · exact ⟨n, List.mem_cons_self, hd.1, hd.2, h⟩
                    · exact ⟨m, List.mem_cons_of_mem _ h1, h2⟩
                  · rintro ⟨m, h1, h2, h3, h4⟩
                    rcases List.mem_cons.1 h1 with rfl | h1
                    · exact .inl h4
                    · exact .inr ⟨m, h1, h2, h3, h4⟩
          obtain ⟨N, st', g1, g2, g3⟩ := all names st (fun t => ⟨(t d names hload).1, fun n hn => ((t d names hload).2 n hn).2⟩) hst
          refine ⟨N + 1, st', fun n hn => ?_, g2, g3.congr fun f => ?_⟩
          · cases n with
            | zero => omega
            | succ n =>
              unfold procDir
              rw [if_neg hr, if_neg (by omega), hload]
              exact g1 n (by omega)
          · rw [hdrop]
            by_cases hlast : s + 1 = es.length
            · have hnil : es.drop (s + 1) = [] := List.drop_eq_nil_of_le (by omega)
              have hrec : o.recurse = false := by
                cases h : o.recurse with
                | false => rfl
                | true => exact absurd ⟨hlast, h⟩ hr
              rw [hnil]
              simp only [Here, hlast, ↓reduceIte]
              constructor
              · rintro ⟨n, h1, h2, h3, h4, rfl, h5⟩
                exact .last hrec ⟨⟨names, hload, h1⟩, h2, h3⟩ h4 h5
              · intro h
                cases h with
                | @last _ _ _ n _ h1 h2 h3 =>
                  obtain ⟨⟨names', e, h4⟩, h5, h6⟩ := h1
                  rw [hload] at e; cases e
                  exact ⟨n, h4, h5, h6, h2, rfl, h3⟩
                | deep h _ => rw [hrec] at h; cases h
            · have hlt2 : s + 1 < es.length := by omega
              have hdrop2 : es.drop (s + 1) = es[s + 1] :: es.drop (s + 2) := List.drop_eq_getElem_cons hlt2
              simp only [Here, hlast, ↓reduceIte]
              rw [hdrop2]
              constructor
              · rintro ⟨n, h1, h2, h3, h4, h5, h6⟩
                exact .more ⟨⟨names, hload, h1⟩, h2, h3⟩ h4 h5 h6
              · intro h
                cases h with
                | @more _ _ _ _ _ n _ h1 h2 h3 h4 =>
                  obtain ⟨⟨names', e, h5⟩, h6, h7⟩ := h1
                  rw [hload] at e; cases e
                  exact ⟨n, h5, h6, h7, h2, h3, h4⟩

/-! ### Where the search starts -/

def isWild (c : Nat) : Bool := c = 91 ∨ c = 63 ∨ c = 42

/-- An expression taken apart: a path without wildcards, a slash, and the rest, in which the first part has a wildcard or is the last one. -/
structure Apart (expr base tail : Path) : Prop where
  text : expr = base ++ 47 :: tail
  root : base = [] ∨ base.head? = some 47
  plain : ∀ c ∈ base, isWild c = false
  first : ∀ u v, tail = u ++ 47 :: v → ∃ c ∈ u, isWild c = true

theorem wild_iff (c : Nat) : (c = 91 ∨ c = 63 ∨ c = 42) ↔ isWild c = true := by simp [isWild]

theorem lastSlash_tail (tail : Path) (cc acc : Nat) (prev : Option Nat) (hp : prev ≠ some 92) (h92 : 92 ∉ tail) (hcc : 0 < cc)
    (h : ∀ u v, tail = u ++ 47 :: v → ∃ c ∈ u, isWild c = true) : lastSlash cc acc prev tail = acc := by
  induction tail generalizing cc prev with
  | nil => rfl
  | cons c t ih =>
    have hc : c ≠ 47 := by rintro rfl; obtain ⟨x, hx, -⟩ := h [] t rfl; cases hx
    simp only [List.mem_cons, not_or] at h92
    simp only [lastSlash, hc, false_and, and_false, ↓reduceIte]
    by_cases hw : c = 91 ∨ c = 63 ∨ c = 42
    · rw [if_pos ⟨hcc, hw, hp⟩]
    · rw [if_neg (by tauto)]
      refine ih (cc + 1) (some c) (by simpa using fun e => h92.1 e.symm) h92.2 (by omega) ?_
      intro u v e
      obtain ⟨x, hx, hx'⟩ := h (c :: u) v (by rw [e]; rfl)
      rcases List.mem_cons.1 hx with rfl | hx
      · exact absurd ((wild_iff _).2 hx') hw
      · exact ⟨x, hx, hx'⟩

theorem lastSlash_base (base tail : Path) (cc acc : Nat) (prev : Option Nat) (hp : prev ≠ some 92) (h92 : 92 ∉ base ++ 47 :: tail) (hb : ∀ c ∈ base, isWild c = false)
    (h : ∀ u v, tail = u ++ 47 :: v → ∃ c ∈ u, isWild c = true) (hcc : 0 < cc) : lastSlash cc acc prev (base ++ 47 :: tail) = cc + base.length := by
  induction base generalizing cc acc prev with
  | nil =>
    simp only [List.nil_append, List.mem_cons, not_or] at h92
    rw [List.nil_append, lastSlash]
    simp only [true_and, show ¬ (47 = 91 ∨ 47 = 63 ∨ (47 : Nat) = 42) by decide, false_and, and_false, ↓reduceIte]
    rw [if_pos ⟨hcc, hp⟩, lastSlash_tail tail _ _ _ (by decide) h92.2 (by omega) h]; rfl
  | cons c base ih =>
    simp only [List.cons_append, List.mem_cons, not_or] at h92
    have hw : ¬ (c = 91 ∨ c = 63 ∨ c = 42) := by rw [wild_iff, hb c List.mem_cons_self]; decide
    rw [List.cons_append, lastSlash]
    simp only [hw, false_and, and_false, ↓reduceIte]
    rw [ih _ _ _ (by simpa using fun e => h92.1 e.symm) h92.2 (fun x hx => hb x (List.mem_cons_of_mem _ hx)) (by omega), List.length_cons]
    omega

theorem skip_apart {expr base tail : Path} (h : Apart expr base tail) (h92 : 92 ∉ expr) : skipOf expr = base.length := by
  obtain ⟨rfl, hr, hp, hf⟩ := h
  unfold skipOf
  cases base with
  | nil =>
    simp only [List.nil_append, List.mem_cons, not_or] at h92
    have : lastSlash 0 0 none ([] ++ 47 :: tail) = 0 := by
      rw [List.nil_append, lastSlash]
      simp only [Nat.lt_irrefl, gt_iff_lt, false_and, ↓reduceIte]
      exact lastSlash_tail tail _ _ _ (by decide) h92.2 (by omega) hf
    simp only [this]
    rw [if_neg (by decide), if_neg (by simp)]; rfl
  | cons c base =>
    have hc : c = 47 := by rcases hr with h | h; · cases h
                           · simpa using h
    subst hc
    simp only [List.cons_append, List.mem_cons, not_or] at h92
    have : lastSlash 0 0 none (47 :: base ++ 47 :: tail) = (47 :: base).length := by
      rw [List.cons_append, lastSlash]
      simp only [Nat.lt_irrefl, gt_iff_lt, false_and, ↓reduceIte]
      rw [lastSlash_base base tail _ _ _ (by decide) h92.2 (fun x hx => hp x (List.mem_cons_of_mem _ hx)) hf (by decide), List.length_cons]
      omega
    simp only [this]
    rw [if_pos (by simp)]

theorem splitOn_cons (c : Nat) (t : Path) : ∃ h r, t.splitOn 47 = h :: r ∧ (c :: t).splitOn 47 = if c = 47 then [] :: h :: r else (c :: h) :: r := by
  have hne : t.splitOn 47 ≠ [] := List.splitOnP_ne_nil _ _
  obtain ⟨h, r, e⟩ := List.exists_cons_of_ne_nil hne
  refine ⟨h, r, e, ?_⟩
  have e' : List.splitOnP (· == 47) t = h :: r := e
  show List.splitOnP (· == 47) (c :: t) = _
  rw [List.splitOnP_cons, e']
  by_cases hc : c = 47 <;> simp [hc]

/-- The parts between slashes, without the empty ones. -/
def between (t : Path) : List Path := (t.splitOn 47).filter (· ≠ [])

theorem parts_eq (cur t : Path) : parts cur t = match t.splitOn 47 with
    | [] => []
    | h :: r => ((cur ++ h) :: r).filter (· ≠ []) := by
  induction t generalizing cur with
  | nil =>
    show (if cur ≠ [] then [cur] else []) = _
    rw [show ([] : Path).splitOn 47 = [[]] from by simp]
    by_cases h : cur = [] <;> simp [h]
  | cons c t ih =>
    obtain ⟨h, r, e1, e2⟩ := splitOn_cons c t
    rw [parts, e2]
    by_cases hc : c = 47
    · rw [if_pos hc, if_pos hc, ih, e1]
      simp only [List.append_nil, List.nil_append]
      rw [List.filter_cons (x := cur)]
      by_cases h : cur = [] <;> simp [h]
    · rw [if_neg hc, if_neg hc, ih, e1]
      simp

theorem parts_between (t : Path) : parts [] (47 :: t) = between t := by
  rw [parts, if_pos rfl, parts_eq]
  simp only [List.nil_append, ne_eq, not_true_eq_false, ↓reduceIte, between]
  have hne : t.splitOn 47 ≠ [] := List.splitOnP_ne_nil _ _
  obtain ⟨h, r, e⟩ := List.exists_cons_of_ne_nil hne
  rw [e]

theorem parts_mem {cur t : Path} {p : Path} (h : p ∈ parts cur t) {c : Nat} (hc : c ∈ p) : c ∈ cur ∨ c ∈ t := by
  induction t generalizing cur with
  | nil =>
    rw [parts] at h
    split at h
    · rw [List.mem_singleton.1 h] at hc; exact .inl hc
    · cases h
  | cons d t ih =>
    rw [parts] at h
    split at h
    · rcases List.mem_append.1 h with h | h
      · split at h
        · rw [List.mem_singleton.1 h] at hc; exact .inl hc
        · cases h
      · rcases ih h with h | h
        · cases h
        · exact .inr (List.mem_cons_of_mem _ h)
    · rcases ih h with h | h
      · rcases List.mem_append.1 h with h | h
        · exact .inl h
        · rw [List.mem_singleton.1 h]; exact .inr List.mem_cons_self
      · exact .inr (List.mem_cons_of_mem _ h)

/-- Every absolute expression can be taken apart, in one way. -/
theorem apart_exists (expr : Path) (h : expr.head? = some 47) : ∃ base tail, Apart expr base tail := by
  -- the last slash before the first wildcard
  have key : ∀ (t : Path), (∃ b r, t = b ++ 47 :: r ∧ (∀ c ∈ b, isWild c = false) ∧ ∀ u v, r = u ++ 47 :: v → ∃ c ∈ u, isWild c = true) ∨
      ∀ u v, t = u ++ 47 :: v → ∃ c ∈ u, isWild c = true := by
    intro t
    induction t with
    | nil => right; intro u v e; simp at e
    | cons c t ih =>
      by_cases hw : isWild c = true
      · right
        intro u v e
        cases u with
        | nil => simp only [List.nil_append, List.cons.injEq] at e; rw [e.1] at hw; cases hw
        | cons d u => simp only [List.cons_append, List.cons.injEq] at e; exact ⟨d, List.mem_cons_self, by rw [← e.1]; exact hw⟩
      · rcases ih with ⟨b, r, e, h1, h2⟩ | hn
        · left
          refine ⟨c :: b, r, by rw [e]; rfl, ?_, h2⟩
          intro x hx
          rcases List.mem_cons.1 hx with rfl | hx
          · simpa using hw
          · exact h1 x hx
        · by_cases hc : c = 47
          · left; exact ⟨[], t, by rw [hc]; rfl, by simp, hn⟩
          · right
            intro u v e
            cases u with
            | nil => simp only [List.nil_append, List.cons.injEq] at e; exact absurd e.1 hc
            | cons d u =>
              simp only [List.cons_append, List.cons.injEq] at e
              obtain ⟨x, h1, h2⟩ := hn u v e.2
              exact ⟨x, List.mem_cons_of_mem _ h1, h2⟩
  rcases key expr with ⟨b, r, e, h1, h2⟩ | hn
  · refine ⟨b, r, e, ?_, h1, h2⟩
    cases b with
    | nil => exact .inl rfl
    | cons c b => right; rw [e] at h; simpa using h
  · cases expr with
    | nil => cases h
    | cons c t =>
      have hc : c = 47 := by simpa using h
      subst hc
      obtain ⟨x, hx, -⟩ := hn [] t rfl
      cases hx

/-! ### The properties -/

theorem find_apart {fs : Fs} {o : Opts} {inexpr base tail : Path} (ha : Apart (fullExpr fs inexpr) base tail)
    (h0 : 0 ∉ fullExpr fs inexpr) (h92 : 92 ∉ fullExpr fs inexpr) (st : St)
    (hrec : o.recurse = true → ∀ p s d, (between tail).getLast? = some p → 0 ∉ p → RecOk fs o (between tail) p st.visited s d) :
    ∃ N st', (∀ n, N ≤ n → findFiles fs o n inexpr st = some st') ∧ st'.visited = st.visited ∧ (Tidy fs → st'.files.Nodup) ∧
      ∀ f, f ∈ st'.files ↔ Found fs o st.visited (between tail) 0 (base ++ [47]) f := by
  have hsk := skip_apart ha h92
  have hes : parts [] ((fullExpr fs inexpr).drop (skipOf (fullExpr fs inexpr))) = between tail := by
    rw [hsk, ha.text, List.drop_left, parts_between]
  have hdir : (if skipOf (fullExpr fs inexpr) > 0 then (fullExpr fs inexpr).take (skipOf (fullExpr fs inexpr)) ++ [47] else [47]) = base ++ [47] := by
    rw [hsk, ha.text, List.take_left]
    cases base with
    | nil => rfl
    | cons c b => rw [if_pos (by simp)]
  have hz : ∀ p ∈ between tail, 0 ∉ p := by
    intro p hp hm
    rw [← parts_between] at hp
    rcases parts_mem hp hm with h | h
    · cases h
    · exact h0 (by rw [ha.text]; exact List.mem_append_right _ h)
  obtain ⟨N, st', g1, g2, new, g3, g4, g5⟩ := procDir_ok (between tail) hz st.visited hrec (between tail).length 0 (base ++ [47]) { st with files := [] } (by omega) rfl
  refine ⟨N, st', fun n hn => ?_, g2, fun t => ?_, fun f => ?_⟩
  · unfold findFiles
    dsimp only
    rw [hes, hdir]
    exact g1 n hn
  · rw [g3]; exact g4 t
  · rw [g3]
    exact g5 f

/-- C148: without recursion, `FindFiles` on an absolute expression (no backslash in it) returns for every file system, even an infinite one,
    and finds exactly the paths made of the leading path without wildcards and one listed name for each further part that fits it, where all
    but the last are directories; each path once. -/
theorem C148_files (fs : Fs) (o : Opts) (ho : o.recurse = false) (expr : Path) (habs : expr.head? = some 47) (h0 : 0 ∉ expr) (h92 : 92 ∉ expr) (st : St) :
    ∃ base tail, Apart expr base tail ∧ ∃ N st', (∀ n, N ≤ n → findFiles fs o n expr st = some st') ∧ (Tidy fs → st'.files.Nodup) ∧
      ∀ f, f ∈ st'.files ↔ Found fs o st.visited (between tail) 0 (base ++ [47]) f := by
  have hfull : fullExpr fs expr = expr := by simp [fullExpr, habs]
  obtain ⟨base, tail, ha⟩ := apart_exists expr habs
  obtain ⟨N, st', g1, -, g3, g4⟩ := find_apart (fs := fs) (o := o) (inexpr := expr) (hfull.symm ▸ ha) (hfull.symm ▸ h0) (hfull.symm ▸ h92) st (fun h => by rw [ho] at h; cases h)
  exact ⟨base, tail, ha, N, st', g1, g3, g4⟩

/-- Without recursion, the paths by names. -/
theorem found_names {fs : Fs} {o : Opts} (ho : o.recurse = false) {v : List Path} {ps : List Path} {s : Nat} {d f : Path} :
    Found fs o v ps s d f ↔ match ps with
      | [] => False
      | [p] => ∃ n, Listed fs d n ∧ Fits p n ∧ (fs.isDir (join s d n) = true → o.listDirs = true) ∧ f = join s d n
      | p :: q :: rest => ∃ n, Listed fs d n ∧ Fits p n ∧ fs.isDir (join s d n) = true ∧ Found fs o v (q :: rest) (s + 1) (join s d n) f := by
  constructor
  · intro h
    cases h with
    | last _ h1 h2 h3 => exact ⟨_, h1, h2, h3, rfl⟩
    | deep h _ => rw [ho] at h; cases h
    | more h1 h2 h3 h4 => exact ⟨_, h1, h2, h3, h4⟩
  · intro h
    match ps, h with
    | [p], h => obtain ⟨n, h1, h2, h3, rfl⟩ := h; exact .last ho h1 h2 h3
    | p :: q :: rest, h => obtain ⟨n, h1, h2, h3, h4⟩ := h; exact .more h1 h2 h3 h4

/-- C149: with recursion, on a finite file system, `FindFiles` always returns, even if links lead back to directories above them, and finds
    exactly what the parts but the last lead to and what is below that; each path once. Nothing of the search stays behind in the object. -/
theorem C149_recursion (fs : Fs) (o : Opts) (fin : Finite fs o) (expr : Path) (habs : expr.head? = some 47) (h0 : 0 ∉ expr) (h92 : 92 ∉ expr) (st : St)
    (hst : st.visited = []) :
    ∃ base tail, Apart expr base tail ∧ ∃ N st', (∀ n, N ≤ n → findFiles fs o n expr st = some st') ∧ st'.visited = [] ∧ (Tidy fs → st'.files.Nodup) ∧
      ∀ f, f ∈ st'.files ↔ Found fs o [] (between tail) 0 (base ++ [47]) f := by
  have hfull : fullExpr fs expr = expr := by simp [fullExpr, habs]
  obtain ⟨base, tail, ha⟩ := apart_exists expr habs
  obtain ⟨N, st', g1, g2, g3, g4⟩ := find_apart (fs := fs) (o := o) (inexpr := expr) (hfull.symm ▸ ha) (hfull.symm ▸ h0) (hfull.symm ▸ h92) st
    (fun _ p s d hp hp0 => recDir_ok hp hp0 fin _ _ st.visited s d (fun _ => by rw [hst]; exact ⟨List.nodup_nil, by simp⟩) (Nat.le_refl _) (Nat.le_refl _))
  rw [hst] at g2 g4
  exact ⟨base, tail, ha, N, st', g1, g2, g3, g4⟩

/-! ### Nothing is missed because of a cycle -/

/-- One goes from a directory to another by directories and links; the list has the canonical paths of the directories in which the links are. -/
inductive Walk (fs : Fs) : Nat → Path → List Path → Nat → Path → Prop where
  | refl {s d} : Walk fs s d [] s d
  | dir {s d n ls s' d'} : Listed fs d n → fs.isDir (join s d n) = true → fs.isLink (join s d n) = false → Walk fs (s + 1) (join s d n) ls s' d' → Walk fs s d ls s' d'
  | link {s d n c ls s' d'} : Listed fs d n → fs.isDir (join s d n) = true → fs.isLink (join s d n) = true → fs.real d = .ok c →
      Walk fs (s + 1) (join s d n) ls s' d' → Walk fs s d (c :: ls) s' d'

/-- Two paths of a directory lead to the same things (a path ends in a slash if nothing is to be put between it and a name). -/
def Consistent (fs : Fs) : Prop :=
  ∀ s d s2 d2 c, (s = 0 → d.getLast? = some 47) → (s2 = 0 → d2.getLast? = some 47) → fs.real d = .ok c → fs.real d2 = .ok c →
    fs.load d = fs.load d2 ∧ ∀ n, Listed fs d n → fs.isDir (join s d n) = fs.isDir (join s2 d2 n) ∧ fs.isLink (join s d n) = fs.isLink (join s2 d2 n) ∧
      (fs.isDir (join s d n) = true → ∃ c', fs.real (join s d n) = .ok c' ∧ fs.real (join s2 d2 n) = .ok c')

theorem Walk.trans {fs : Fs} {s d a s1 d1 b s2 d2} (h1 : Walk fs s d a s1 d1) (h2 : Walk fs s1 d1 b s2 d2) : Walk fs s d (a ++ b) s2 d2 := by
  induction h1 with
  | refl => exact h2
  | dir l i k _ ih => exact .dir l i k (ih h2)
  | link l i k r _ ih => exact .link l i k r (ih h2)

theorem Walk.le {fs : Fs} {s d a s1 d1} (h : Walk fs s d a s1 d1) : s ≤ s1 ∧ (s1 = s → d1 = d) := by
  induction h with
  | refl => exact ⟨Nat.le_refl _, fun _ => rfl⟩
  | dir _ _ _ _ ih => exact ⟨by omega, fun h => by omega⟩
  | link _ _ _ _ _ ih => exact ⟨by omega, fun h => by omega⟩

theorem Walk.good {fs : Fs} {s d a s1 d1} (h : Walk fs s d a s1 d1) (hg : s = 0 → d.getLast? = some 47) : s1 = 0 → d1.getLast? = some 47 := by
  intro e
  have := h.le
  rw [this.2 (by omega)]; exact hg (by omega)

theorem Walk.cut {fs : Fs} {s d ls s' d'} (h : Walk fs s d ls s' d') : ∀ a c b, ls = a ++ c :: b → ∃ s1 d1, Walk fs s d a s1 d1 ∧ fs.real d1 = .ok c ∧ Walk fs s1 d1 (c :: b) s' d' := by
  induction h with
  | refl => intro a c b e; simp at e
  | dir l i k _ ih =>
    intro a c b e
    obtain ⟨s1, d1, h1, h2, h3⟩ := ih a c b e
    exact ⟨s1, d1, .dir l i k h1, h2, h3⟩
  | @link s d n c0 ls s' d' l i k r w ih =>
    intro a c b e
    cases a with
    | nil =>
      simp only [List.nil_append, List.cons.injEq] at e
      obtain ⟨rfl, rfl⟩ := e
      exact ⟨s, d, .refl, r, .link l i k r w⟩
    | cons a0 a =>
      simp only [List.cons_append, List.cons.injEq] at e
      obtain ⟨rfl, e⟩ := e
      obtain ⟨s1, d1, h1, h2, h3⟩ := ih a c b e
      exact ⟨s1, d1, .link l i k r h1, h2, h3⟩

theorem Walk.replay {fs : Fs} (hc : Consistent fs) {s d ls s' d'} (h : Walk fs s d ls s' d') : ∀ s2 d2 c, (s = 0 → d.getLast? = some 47) → (s2 = 0 → d2.getLast? = some 47) →
    fs.real d = .ok c → fs.real d2 = .ok c → ∃ s3 d3 e, Walk fs s2 d2 ls s3 d3 ∧ fs.real d' = .ok e ∧ fs.real d3 = .ok e := by
  induction h with
  | refl => intro s2 d2 c _ _ h1 h2; exact ⟨s2, d2, c, .refl, h1, h2⟩
  | @dir s d n ls s' d' l i k w ih =>
    intro s2 d2 c g1 g2 h1 h2
    obtain ⟨hl, hn⟩ := hc s d s2 d2 c g1 g2 h1 h2
    obtain ⟨e1, e2, e3⟩ := hn n l
    obtain ⟨c', r1, r2⟩ := e3 i
    obtain ⟨s3, d3, e, w', a, b⟩ := ih (s2 + 1) (join s2 d2 n) c' (by omega) (by omega) r1 r2
    obtain ⟨⟨names, k1, k2⟩, k3⟩ := l
    exact ⟨s3, d3, e, .dir ⟨⟨names, hl ▸ k1, k2⟩, k3⟩ (e1 ▸ i) (e2 ▸ k) w', a, b⟩
  | @link s d n c0 ls s' d' l i k r w ih =>
    intro s2 d2 c g1 g2 h1 h2
    obtain ⟨hl, hn⟩ := hc s d s2 d2 c g1 g2 h1 h2
    obtain ⟨e1, e2, e3⟩ := hn n l
    obtain ⟨c', r1, r2⟩ := e3 i
    obtain ⟨s3, d3, e, w', a, b⟩ := ih (s2 + 1) (join s2 d2 n) c' (by omega) (by omega) r1 r2
    obtain ⟨⟨names, k1, k2⟩, k3⟩ := l
    have : c0 = c := by rw [h1] at r; cases r; rfl
    exact ⟨s3, d3, e, .link ⟨⟨names, hl ▸ k1, k2⟩, k3⟩ (e1 ▸ i) (e2 ▸ k) (this ▸ h2) w', a, b⟩

theorem not_nodup_split : ∀ {ls : List Path}, ¬ ls.Nodup → ∃ a c b e, ls = a ++ c :: (b ++ c :: e) := by
  intro ls
  induction ls with
  | nil => intro h; simp at h
  | cons x ls ih =>
    intro h
    by_cases hx : x ∈ ls
    · obtain ⟨b, e, rfl⟩ := List.append_of_mem hx
      exact ⟨[], x, b, e, rfl⟩
    · obtain ⟨a, c, b, e, rfl⟩ := ih (fun h' => h (List.nodup_cons.2 ⟨hx, h'⟩))
      exact ⟨x :: a, c, b, e, rfl⟩

/-- Every directory one can walk to can be walked to without following two links of one directory. -/
theorem Walk.once {fs : Fs} (hc : Consistent fs) {s d : _} (hg : s = 0 → d.getLast? = some 47) : ∀ k ls s' d' e, ls.length ≤ k → Walk fs s d ls s' d' → fs.real d' = .ok e →
    ∃ ls2 s2 d2, ls2.Nodup ∧ Walk fs s d ls2 s2 d2 ∧ fs.real d2 = .ok e := by
  intro k
  induction k with
  | zero =>
    intro ls s' d' e hk w he
    have : ls = [] := List.length_eq_zero_iff.1 (by omega)
    subst this
    exact ⟨[], s', d', List.nodup_nil, w, he⟩
  | succ k ih =>
    intro ls s' d' e hk w he
    by_cases hn : ls.Nodup
    · exact ⟨ls, s', d', hn, w, he⟩
    · obtain ⟨a, c, b, r, rfl⟩ := not_nodup_split hn
      obtain ⟨s1, d1, w1, r1, w1'⟩ := w.cut a c (b ++ c :: r) rfl
      obtain ⟨s2, d2, w2, r2, w2'⟩ := w1'.cut (c :: b) c r rfl
      obtain ⟨s3, d3, e', w3, h1, h2⟩ := w2'.replay hc s1 d1 c (w2.good (w1.good hg)) (w1.good hg) r2 r1
      rw [he] at h1; cases h1
      exact ih (a ++ c :: r) s3 d3 e (by simp at hk ⊢; omega) (w1.trans w3) h2

theorem below_walk {fs : Fs} {o : Opts} (ht : o.through = true) {p : Path} {s d ls s' d' f} (w : Walk fs s d ls s' d') : ∀ v, (v ++ ls).Nodup → Below fs o p (v ++ ls) s' d' f → Below fs o p v s d f := by
  induction w with
  | refl => intro v _ h; simpa using h
  | dir l i k _ ih => intro v hv h; exact .inDir l i k (ih v hv h)
  | @link s d n c ls s' d' l i k r _ ih =>
    intro v hv h
    have e : v ++ c :: ls = (v ++ [c]) ++ ls := by simp
    refine .inLink l i k ht r ?_ (ih (v ++ [c]) (e ▸ hv) (e ▸ h))
    intro hm
    exact (List.nodup_append.1 hv).2.2 c hm c List.mem_cons_self rfl

/-- C149: no file is missed because of the cycles that are cut: if a file whose name fits the last part lies in a directory one can reach from the
    starting directory, over whatever links, it is found under some path (of the same canonical directory). -/
theorem C149_complete (fs : Fs) (o : Opts) (fin : Finite fs o) (hcons : Consistent fs) (hr : o.recurse = true) (ht : o.through = true)
    (expr : Path) (habs : expr.head? = some 47) (h0 : 0 ∉ expr) (h92 : 92 ∉ expr) (st : St) (hst : st.visited = []) {base tail p : Path} (ha : Apart expr base tail)
    (hp : between tail = [p]) {ls : List Path} {s : Nat} {d n c : Path} (w : Walk fs 0 (base ++ [47]) ls s d) (hd : fs.real d = .ok c)
    (hn : Listed fs d n) (hfile : fs.isDir (join s d n) = false) (hfit : Fits p n) :
    ∃ N st', (∀ k, N ≤ k → findFiles fs o k expr st = some st') ∧ ∃ s2 d2, fs.real d2 = .ok c ∧ join s2 d2 n ∈ st'.files := by
  have hfull : fullExpr fs expr = expr := by simp [fullExpr, habs]
  obtain ⟨N, st', g1, -, -, g4⟩ := find_apart (fs := fs) (o := o) (inexpr := expr) (hfull.symm ▸ ha) (hfull.symm ▸ h0) (hfull.symm ▸ h92) st
    (fun _ p s d hp hp0 => recDir_ok hp hp0 fin _ _ st.visited s d (fun _ => by rw [hst]; exact ⟨List.nodup_nil, by simp⟩) (Nat.le_refl _) (Nat.le_refl _))
  have hg : (0 = 0 → (base ++ [47]).getLast? = some 47) := by simp
  obtain ⟨ls2, s2, d2, hnd, w2, hd2⟩ := w.once hcons hg _ _ _ _ _ (Nat.le_refl _) hd
  obtain ⟨hl, hn'⟩ := hcons s d s2 d2 c (w.good hg) (w2.good hg) hd hd2
  obtain ⟨e1, -, -⟩ := hn' n hn
  refine ⟨N, st', g1, s2, d2, hd2, ?_⟩
  rw [g4, hp, hst]
  refine .deep hr (below_walk ht w2 [] (by simpa using hnd) ?_)
  obtain ⟨⟨names, k1, k2⟩, k3⟩ := hn
  exact .file ⟨⟨names, hl ▸ k1, k2⟩, k3⟩ (fun h => by rw [← e1, hfile] at h; cases h) hfit

/-! ### Relative expressions -/

/-- C150: what a relative expression should find: as if from the working directory, whose name means itself. -/
def RelativeSpec (fs : Fs) (o : Opts) : Prop :=
  ∀ expr, expr ≠ [] → expr.head? ≠ some 47 → expr.head? ≠ some 126 → 0 ∉ expr → 92 ∉ expr → ∀ base tail, Apart (47 :: expr) base tail → ∀ st, st.visited = [] →
    ∃ N st', (∀ n, N ≤ n → findFiles fs o n expr st = some st') ∧
      ∀ f, f ∈ st'.files ↔ Found fs o [] (between tail) 0 (fs.cwd ++ base ++ [47]) f

/-- C150, with a working directory whose name has no wildcard and no backslash. -/
theorem C150_relative_partial (fs : Fs) (o : Opts) (hc : fs.cwd.head? = some 47) (hw : ∀ c ∈ fs.cwd, isWild c = false) (h92 : 92 ∉ fs.cwd) (h0 : 0 ∉ fs.cwd)
    (fin : o.recurse = true → Nonempty (Finite fs o)) : RelativeSpec fs o := by
  intro expr _ hne1 hne2 he0 he92 base tail ha st hst
  have hfull : fullExpr fs expr = fs.cwd ++ 47 :: expr := by simp [fullExpr, hne1, hne2]
  have ha' : Apart (fullExpr fs expr) (fs.cwd ++ base) tail := by
    refine ⟨by rw [hfull, ha.text, List.append_assoc], .inr ?_, ?_, ha.first⟩
    · cases h : fs.cwd with
      | nil => rw [h] at hc; cases hc
      | cons a b => rw [h] at hc; simpa using hc
    · intro c hc
      rcases List.mem_append.1 hc with h | h
      · exact hw c h
      · exact ha.plain c h
  obtain ⟨N, st', g1, g2, g3, g4⟩ := find_apart (o := o) ha' (by rw [hfull]; simp [h0, he0]) (by rw [hfull]; simp [h92, he92]) st
    (fun hr p s d hp hp0 => by
      obtain ⟨fin⟩ := fin hr
      exact recDir_ok hp hp0 fin _ _ st.visited s d (fun _ => by rw [hst]; exact ⟨List.nodup_nil, by simp⟩) (Nat.le_refl _) (Nat.le_refl _))
  rw [hst] at g4
  exact ⟨N, st', g1, g4⟩

def noSt : St := ⟨[], 0, [], []⟩

/-- A file system with the directory `/[a]/` and in it a file `f`; the working directory is `/[a]`. -/
def bracketFs : Fs where
  load := fun d => if d = [47] then some [[46], [46, 46], [91, 97, 93]] else if d = [47, 91, 97, 93] ∨ d = [47, 91, 97, 93, 47] then some [[46], [46, 46], [102]] else none
  isDir := fun q => q = [47, 91, 97, 93]
  isLink := fun _ => false
  real := fun q => .ok q
  cwd := [47, 91, 97, 93]

def plainOpts : Opts := ⟨false, false, false, false⟩

/-- C150 is violated: in the working directory `/[a]`, the expression `f` does not find the file `f`: the name of the directory is read as a
    pattern (here: the one letter `a`). -/
theorem C150_relative_refuted : ¬ RelativeSpec bracketFs plainOpts := by
  intro h
  obtain ⟨N, st', h1, h2⟩ := h [102] (by decide) (by decide) (by decide) (by decide) (by decide) [] [102]
    ⟨rfl, .inl rfl, by simp, by intro u v e; have := congrArg (47 ∈ ·) e; simp at this⟩ noSt rfl
  -- the file is there
  have hfit : Fits [102] [102] := ⟨by decide +kernel, [.chr 102], .chr (by decide) (by decide) (by decide) .nil, .chr .nil⟩
  have hf : [47, 91, 97, 93, 47, 102] ∈ st'.files := by
    rw [h2]
    exact .last (n := [102]) rfl ⟨⟨[[46], [46, 46], [102]], by decide, by decide⟩, by decide, by decide⟩ hfit (by decide)
  -- the search looks for directories of one letter
  have hlist : ∀ n, Listed bracketFs [47] n → n = [91, 97, 93] := by
    rintro n ⟨⟨names, e, hn⟩, n1, n2⟩
    have e : names = [[46], [46, 46], [91, 97, 93]] := by simpa [bracketFs] using e.symm
    rw [e] at hn
    simpa [n1, n2] using hn
  have hno : ¬ Fits [91, 97, 93] [91, 97, 93] := by
    rintro ⟨-, l, hl, hm⟩
    have hl' : Reads [91, 97, 93] [.set false [(97, 97)]] :=
      .set (mark := []) (c := 97) (body := []) (rest := []) (Closed.mk rfl (.inr (.inr (by decide))) (by decide)) .nil .nil
    rw [C147_one_reading hl hl'] at hm
    cases hm with
    | set _ h => cases h
  obtain ⟨M, st2, g1, -, -, g4⟩ := find_apart (fs := bracketFs) (o := plainOpts) (inexpr := [102]) (base := []) (tail := [91, 97, 93, 47, 102])
    ⟨by decide, .inl rfl, by simp, by
      intro u v e
      match u, e with
      | [], e => cases e
      | c :: u, e => exact ⟨c, List.mem_cons_self, by rw [← (List.cons.inj e).1]; rfl⟩⟩ (by decide) (by decide) noSt (fun h => by cases h)
  have e : st' = st2 := by
    have a1 := h1 (max N M) (by omega)
    rw [g1 (max N M) (by omega)] at a1
    cases a1; rfl
  rw [e, g4, show between [91, 97, 93, 47, 102] = [[91, 97, 93], [102]] from by decide +kernel] at hf
  cases hf with
  | more k1 k2 _ _ =>
    rw [hlist _ k1] at k2
    exact hno k2

/-- A backslash only counts when the leading path is looked for: in `/x\\*/f` the first two parts are taken to be the name of a directory. -/
example : skipOf (bytes "/x\\*/f") = 4 ∧ skipOf (bytes "/xy*/f") = 0 := by decide +kernel

/-! ### Examples -/

/-- A directory `/r` with a file `f` and a link `l` back to `/r`. -/
def loopFs : Fs where
  load := fun _ => some [[46], [46, 46], bytes "f", bytes "l"]
  isDir := fun q => q.getLast? = some 108
  isLink := fun q => q.getLast? = some 108
  real := fun _ => .ok (bytes "/r")
  cwd := bytes "/r"

def deepOpts : Opts := ⟨true, true, true, true⟩

/-- The hypotheses of C149 hold although the link could be followed for ever, … -/
def loopFinite : Finite loopFs deepOpts where
  depth := fun _ => 0
  limit := 0
  reals := [bytes "/r"]
  deeper := by
    intro s d n _ h1 h2
    simp only [loopFs] at h1 h2
    rw [h1] at h2; cases h2
  limited := fun _ => Nat.le_refl _
  canon := fun _ d names _ => ⟨bytes "/r", rfl, by simp⟩

example : ∃ base tail, Apart (bytes "/r/*") base tail ∧ ∃ N st', (∀ n, N ≤ n → findFiles loopFs deepOpts n (bytes "/r/*") noSt = some st') ∧ st'.visited = [] ∧
    (Tidy loopFs → st'.files.Nodup) ∧ ∀ f, f ∈ st'.files ↔ Found loopFs deepOpts [] (between tail) 0 (base ++ [47]) f :=
  C149_recursion loopFs deepOpts loopFinite _ (by decide +kernel) (by decide +kernel) (by decide +kernel) noSt rfl

theorem getLast_join (s : Nat) (d n : Path) (h : n ≠ []) : (join s d n).getLast? = n.getLast? := by
  unfold join
  split <;> rw [List.getLast?_append_of_ne_nil _ h]

example : Consistent loopFs := by
  intro s d s2 d2 c g1 g2 h1 h2
  refine ⟨?_, fun n hn => ?_⟩
  · rfl
  · have hne : n ≠ [] := by
      obtain ⟨⟨names, e, h⟩, -, -⟩ := hn
      have e : names = [[46], [46, 46], bytes "f", bytes "l"] := by simpa [loopFs] using e.symm
      rintro rfl
      rw [e] at h
      revert h
      decide +kernel
    simp [loopFs, getLast_join _ _ n hne]

/-- A file reached by following the link twice. -/
example : ∃ s d ls, Walk loopFs 0 (bytes "/r" ++ [47]) ls s d ∧ ¬ ls.Nodup ∧ loopFs.real d = .ok (bytes "/r") ∧ Listed loopFs d (bytes "f") ∧ loopFs.isDir (join s d (bytes "f")) = false := by
  have hl : ∀ d, Listed loopFs d (bytes "l") := fun d => ⟨⟨_, rfl, by decide +kernel⟩, by decide +kernel, by decide +kernel⟩
  exact ⟨2, bytes "/r/l/l", [bytes "/r", bytes "/r"], .link (n := bytes "l") (hl _) (by decide +kernel) (by decide +kernel) rfl (.link (n := bytes "l") (hl _)
    (by decide +kernel) (by decide +kernel) rfl (by rw [show join (0 + 1) (join 0 (bytes "/r" ++ [47]) (bytes "l")) (bytes "l") = bytes "/r/l/l" by decide +kernel]; exact .refl)),
    by decide +kernel, rfl, ⟨⟨_, rfl, by decide +kernel⟩, by decide +kernel, by decide +kernel⟩, by decide +kernel⟩

/-- … and this is found. -/
example : (findFiles loopFs deepOpts 200 (bytes "/r/*") noSt).map (fun s => (s.files, s.messages, s.visited)) =
    some ([bytes "/r/f", bytes "/r/l", bytes "/r/l/f"], [.cyclic [bytes "/r"] (bytes "/r/l")], []) := by decide +kernel

/-- Without recursion, with a wildcard in the directory. -/
def treeFs : Fs where
  load := fun d => if d = bytes "/" then some [[46], bytes "a1", bytes "a2", bytes "b"] else if d = bytes "/a1" then some [[46], bytes "x.c", bytes "x.h", bytes "d.c"]
    else if d = bytes "/b" then some [bytes "x.c"] else none
  isDir := fun q => q = bytes "/a1" ∨ q = bytes "/b" ∨ q = bytes "/a1/d.c"
  isLink := fun _ => false
  real := fun q => .ok q
  cwd := bytes "/"

example : (findFiles treeFs plainOpts 200 (bytes "/a?/*.c") noSt).map St.files = some [bytes "/a1/x.c"] ∧
    (findFiles treeFs { plainOpts with listDirs := true } 200 (bytes "/a?/*.c") noSt).map St.files = some [bytes "/a1/x.c", bytes "/a1/d.c"] := by decide +kernel

end Vital.Glob
