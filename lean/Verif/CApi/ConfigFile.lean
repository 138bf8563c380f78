import Verif.CApi.ConfigHandles
import Verif.Config.ReadFileProps
/-
  Model of the file functions of the C interface to config blocks (vital/bindings/c/config_block.cxx:393-487)
  on top of Verif.Config.ReadFile.  Property C126.

  The texts of the exceptions (`what()`) are a parameter.  config_file_not_read_exception is thrown nowhere
  in the library, so its catch block (error code 2) cannot be reached from the modelled readers.
-/
namespace Vital.CApi.CfgFile
open Vital Vital.Config Vital.CApi Vital.CApi.Cfg Vital.Parser Vital.Sys

/-- The catch blocks of the file functions: `eh` is dereferenced without a test, then `strlen` bytes are
    allocated for the message.  `none` = undefined behaviour. -/
-- models: vital/bindings/c/config_block.cxx:405-422 and 479-484
def report (eh : Option EH) (code : Int) (msg : Str) : Option (Option EH) :=
  match eh with
  | none => none
  | some _ =>
    match strcpy (malloc (cstr msg).length) msg with
    | none => none
    | some b => some (some ⟨code, some b⟩)

-- models: vital/bindings/c/config_block.cxx:393-425 (read_config_file_helper) inside STANDARD_CATCH; `r` is
-- the outcome of read_config_file, `as` the addresses of the blocks it created.  `none` = undefined
def readHelper (what : PExc → Str) (s : St) (eh : Option EH) (as : List Nat) (r : Heap × Except PExc Nat) :
    Option (St × Option EH × Cfg.Res) :=
  match r with
  | (h', .ok b) =>
    let addr := s.addr ++ as
    match store s.cache ⟨addr.getD b 0, b⟩ with
    | (c, .ok ()) => some (⟨h', addr, c⟩, eh, .handle (addr.getD b 0))
    | (c, .error _) =>
      match standardCatch eh (.stdException (c!"Cannot store NULL pointer")) with
      | none => none
      | some eh' => some (⟨h', addr, c⟩, eh', .handle 0)
  | (h', .error e) =>
    match e with
    | .notFound _ =>
      match report eh 1 (what e) with
      | none => none
      | some eh' => some (⟨h', s.addr ++ as, s.cache⟩, eh', .handle 0)
    | .notParsed _ =>
      match report eh 3 (what e) with
      | none => none
      | some eh' => some (⟨h', s.addr ++ as, s.cache⟩, eh', .handle 0)
    | .config x =>
      if x = .ub then none
      else
        match standardCatch eh (.stdException (what e)) with
        | none => none
        | some eh' => some (⟨h', s.addr ++ as, s.cache⟩, eh', .handle 0)

/-- `vital_config_block_file_read( path, eh )` may end with the given outcome (`none` = undefined behaviour);
    there is no outcome when the parser does not terminate. -/
-- models: vital/bindings/c/config_block.cxx:430-439
def FileRead (what : PExc → Str) (w : World) (s : St) (as : List Nat) (path : Str) (eh : Option EH)
    (out : Option (St × Option EH × Cfg.Res)) : Prop :=
  ∃ h' r, ReadsFile w s.heap [] path h' r ∧ out = readHelper what s eh as (h', r)

-- models: vital/bindings/c/helpers/c_utils.h (MAYBE_EMPTY_STRING)
def maybeEmpty (s : Option Str) : Str := s.getD []

/-- `vital_config_block_file_read_from_standard_location`. -/
-- models: vital/bindings/c/config_block.cxx:443-462
def FileReadStandard (what : PExc → Str) (w : World) (s : St) (as : List Nat) (name : Str) (app version pre : Option Str)
    (merge : Bool) (eh : Option EH) (out : Option (St × Option EH × Cfg.Res)) : Prop :=
  ∃ h' r, ReadsConfig w s.heap name (maybeEmpty app) (maybeEmpty version) (maybeEmpty pre) merge h' r ∧
    out = readHelper what s eh as (h', r)

-- models: vital/bindings/c/config_block.cxx:466-487 (vital_config_block_file_write)
def fileWrite (what : WriteExc → Str) (d : Disk) (w : World) (s : St) (cb : Nat) (path : Str) (eh : Option EH) :
    Option (World × Option EH) :=
  match get s.cache cb with
  | .error _ =>
    match standardCatch eh (.stdException (c!"There is no pointer in the cache")) with
    | none => none
    | some eh' => some (w, eh')
  | .ok p =>
    match writeConfigFile d w s.heap p.tag path with
    | (w', .ok ()) => some (w', eh)
    | (w', .error .write) =>
      match report eh 1 (what .write) with
      | none => none
      | some eh' => some (w', eh')
    | (w', .error (.config x)) =>
      if x = .ub then none
      else
        match standardCatch eh (.stdException (what (.config x))) with
        | none => none
        | some eh' => some (w', eh')

/-! ### Specification: the error codes of config_block.h -/

/-- The documented error code of a failed read. -/
def readCode : PExc → Int
  | .notFound _ => 1
  | .notParsed _ => 3
  | .config _ => -1

/-- The documented error code of a failed write. -/
def writeCode : WriteExc → Int
  | .write => 1
  | .config _ => -1

/-- "the given error handle, if non-null, will be given an error code and message" -/
def Reported (eh eh' : Option EH) (code : Int) : Prop :=
  (eh = none → eh' = none) ∧ (eh.isSome → ∃ (e' : EH) (b : Buf) (m : Str), eh' = some e' ∧ e'.code = code ∧ e'.message = some b ∧ holds b m)

/-- Full property C126: a read that the C++ reader completes yields a usable handle and leaves the error handle alone, a read or
    write that fails is reported by NULL and the documented error code, and nothing is undefined. -/
def C126_statement : Prop :=
  (∀ (what : PExc → Str) (w : World) (s : St) (as : List Nat) (path : Str) (eh : Option EH) (h' : Heap) (b : Nat),
    ReadsFile w s.heap [] path h' (.ok b) → (s.addr ++ as).getD b 0 ≠ 0 → s.cache.cache.find? ((s.addr ++ as).getD b 0) = none →
    ∃ s', FileRead what w s as path eh (some (s', eh, .handle ((s.addr ++ as).getD b 0))) ∧ s'.heap = h' ∧
      get s'.cache ((s.addr ++ as).getD b 0) = .ok ⟨(s.addr ++ as).getD b 0, b⟩) ∧
  (∀ (what : PExc → Str) (w : World) (s : St) (as : List Nat) (path : Str) (eh : Option EH) (h' : Heap) (e : PExc),
    ReadsFile w s.heap [] path h' (.error e) → e ≠ .config .ub →
    ∃ s' eh', FileRead what w s as path eh (some (s', eh', .handle 0)) ∧ s'.cache = s.cache ∧ Reported eh eh' (readCode e)) ∧
  (∀ (what : WriteExc → Str) (d : Disk) (w : World) (s : St) (cb : Nat) (p : Sptr) (path : Str) (eh : Option EH) (w' : World) (e : WriteExc),
    get s.cache cb = .ok p → writeConfigFile d w s.heap p.tag path = (w', .error e) → e ≠ .config .ub →
    ∃ eh', fileWrite what d w s cb path eh = some (w', eh') ∧ Reported eh eh' (writeCode e))

theorem report_none (eh : Option EH) (code : Int) (msg : Str) : report eh code msg = none := by
  cases eh with
  | none => rfl
  | some e =>
    have : ¬ (cstr msg).length + 1 ≤ (cstr msg).length := by omega
    simp [report, strcpy, malloc, this]

/-- C126 is false of the code.  Reading a file that does not exist is undefined behaviour whether or not an
    error handle is passed (NULL is dereferenced, a handle gets a message one byte too long for its buffer), so is
    reading a file with a syntax error, and so is writing to a directory. -/
theorem C126_refuted :
    (∀ (what : PExc → Str) (w : World) (s : St) (as : List Nat) (path : Str) (eh : Option EH) (out : Option (St × Option EH × Cfg.Res)),
      fileExists w path = false → FileRead what w s as path eh out → out = none) ∧
    (∀ (what : PExc → Str) (w : World) (s : St) (as : List Nat) (path f : Str) (eh : Option EH) (h' : Heap) (out : Option (St × Option EH × Cfg.Res)),
      ReadsFile w s.heap [] path h' (.error (.notParsed f)) → FileRead what w s as path eh out → out = none) ∧
    (∀ (what : WriteExc → Str) (d : Disk) (w : World) (s : St) (cb : Nat) (p : Sptr) (path : Str) (eh : Option EH),
      get s.cache cb = .ok p → fileIsDirectory w path = true → fileWrite what d w s cb path eh = none) ∧
    ¬ C126_statement := by
  have A : ∀ (what : PExc → Str) (w : World) (s : St) (as : List Nat) (path : Str) (eh : Option EH) (out : Option (St × Option EH × Cfg.Res)),
      fileExists w path = false → FileRead what w s as path eh out → out = none := by
    rintro what w s as path eh out hne ⟨h', r, ⟨n, hn⟩, rfl⟩
    unfold readFileF at hn
    rw [hne] at hn
    simp only [Bool.not_false, ↓reduceIte, Option.some.injEq, Prod.mk.injEq] at hn
    obtain ⟨rfl, rfl⟩ := hn
    simp [readHelper, report_none]
  refine ⟨A, ?_, ?_, ?_⟩
  · rintro what w s as path f eh h' out hp ⟨h2, r, hr, rfl⟩
    obtain ⟨rfl, rfl⟩ := reads_det hp hr
    simp [readHelper, report_none]
  · intro what d w s cb p path eh hg hd
    simp [fileWrite, hg, writeConfigFile, hd, report_none]
  · rintro ⟨_, h, _⟩
    obtain ⟨s', eh', hf, _⟩ := h (fun _ => []) {} St.init [] (c!"nowhere") none [] (.notFound (c!"nowhere"))
      ⟨0, by decide +kernel⟩ (by simp)
    have := A _ _ _ _ _ _ _ (by decide +kernel) hf
    cases this

/-- What holds of C126: reads that the reader completes (with or without an error handle) return a handle through which the cache finds
    exactly the block read, leave the error handle alone, and likewise for the standard locations; completed writes leave the
    error handle alone; an exception of another kind, or a dead handle, with a NULL error handle is answered by NULL and changes no handle.
    Missing: every report of error codes 1 and 3, and every report to a non-NULL error handle (see C126_refuted and C48_refuted). -/
theorem C126_partial :
    (∀ (what : PExc → Str) (w : World) (s : St) (as : List Nat) (path : Str) (eh : Option EH) (h' : Heap) (b : Nat) (out : Option (St × Option EH × Cfg.Res)),
      ReadsFile w s.heap [] path h' (.ok b) → (s.addr ++ as).getD b 0 ≠ 0 → s.cache.cache.find? ((s.addr ++ as).getD b 0) = none →
      FileRead what w s as path eh out →
      ∃ s', out = some (s', eh, .handle ((s.addr ++ as).getD b 0)) ∧ s'.heap = h' ∧
        get s'.cache ((s.addr ++ as).getD b 0) = .ok ⟨(s.addr ++ as).getD b 0, b⟩ ∧
        ∀ q, q ≠ (s.addr ++ as).getD b 0 → get s'.cache q = get s.cache q) ∧
    (∀ (what : PExc → Str) (w : World) (s : St) (as : List Nat) (name : Str) (app version pre : Option Str) (merge : Bool) (eh : Option EH)
        (h' : Heap) (b : Nat),
      ReadsConfig w s.heap name (app.getD []) (version.getD []) (pre.getD []) merge h' (.ok b) →
      (s.addr ++ as).getD b 0 ≠ 0 → s.cache.cache.find? ((s.addr ++ as).getD b 0) = none →
      ∃ s', FileReadStandard what w s as name app version pre merge eh (some (s', eh, .handle ((s.addr ++ as).getD b 0))) ∧ s'.heap = h' ∧
        get s'.cache ((s.addr ++ as).getD b 0) = .ok ⟨(s.addr ++ as).getD b 0, b⟩) ∧
    (∀ (what : PExc → Str) (w : World) (s : St) (as : List Nat) (path : Str) (h' : Heap) (x : Exc) (out : Option (St × Option EH × Cfg.Res)),
      ReadsFile w s.heap [] path h' (.error (.config x)) → x ≠ .ub → FileRead what w s as path none out →
      ∃ s', out = some (s', none, .handle 0) ∧ s'.cache = s.cache) ∧
    (∀ (what : WriteExc → Str) (d : Disk) (w : World) (s : St) (cb : Nat) (p : Sptr) (path : Str) (eh : Option EH) (w' : World),
      get s.cache cb = .ok p → writeConfigFile d w s.heap p.tag path = (w', .ok ()) → fileWrite what d w s cb path eh = some (w', eh)) ∧
    (∀ (what : WriteExc → Str) (d : Disk) (w : World) (s : St) (cb : Nat) (path : Str) (e : Err),
      get s.cache cb = .error e → fileWrite what d w s cb path none = some (w, none)) ∧
    (∀ (what : WriteExc → Str) (d : Disk) (w : World) (s : St) (cb : Nat) (p : Sptr) (path : Str) (w' : World) (x : Exc),
      get s.cache cb = .ok p → writeConfigFile d w s.heap p.tag path = (w', .error (.config x)) → x ≠ .ub →
      fileWrite what d w s cb path none = some (w', none)) := by
  have S : ∀ (c : Cache) (a b : Nat), a ≠ 0 → c.cache.find? a = none →
      ∃ c', store c ⟨a, b⟩ = (c', .ok ()) ∧ get c' a = .ok ⟨a, b⟩ ∧ ∀ q, q ≠ a → get c' q = get c q := by
    intro c a b ha hf
    refine ⟨⟨c.cache.insert a ⟨a, b⟩, c.count.insert a 1⟩, by simp [store, ha, OMap.contains, hf], ?_, ?_⟩
    · simp [get, ha, OMap.find?_insert]
    · intro q hq
      simp [get, OMap.find?_insert, hq]
  refine ⟨?_, ?_, ?_, ?_, ?_, ?_⟩
  · rintro what w s as path eh h' b out hr ha hf ⟨h2, r, hr2, rfl⟩
    obtain ⟨rfl, rfl⟩ := reads_det hr hr2
    obtain ⟨c', h1, h2, h3⟩ := S s.cache _ b ha hf
    exact ⟨⟨h', s.addr ++ as, c'⟩, by simp only [readHelper, h1], rfl, h2, h3⟩
  · intro what w s as name app version pre merge eh h' b hr ha hf
    obtain ⟨c', h1, h2, h3⟩ := S s.cache _ b ha hf
    exact ⟨⟨h', s.addr ++ as, c'⟩, ⟨h', .ok b, hr, by simp only [readHelper, h1]⟩, rfl, h2⟩
  · rintro what w s as path h' x out hr hx ⟨h2, r, hr2, rfl⟩
    obtain ⟨rfl, rfl⟩ := reads_det hr hr2
    exact ⟨⟨h', s.addr ++ as, s.cache⟩, by simp [readHelper, hx, standardCatch, populateEH], rfl⟩
  · intro what d w s cb p path eh w' hg hw
    simp [fileWrite, hg, hw]
  · intro what d w s cb path e hg
    simp [fileWrite, hg, standardCatch, populateEH]
  · intro what d w s cb p path w' x hg hw hx
    simp [fileWrite, hg, hw, hx, standardCatch, populateEH]

/-- A file system with one small config file. -/
def oneFile : World := World.store {} (c!"/a.cfg") (c!"one = 1\n")

example : (readFileF 20 oneFile [] [] (c!"/a.cfg")).map (·.2) = some (.ok 0) ∧ (St.init.addr ++ [48]).getD 0 0 ≠ 0 := by decide +kernel
example : fileExists oneFile (c!"/b.cfg") = false := by decide +kernel
example : (readFileF 20 (World.store {} (c!"/b.cfg") (c!"block\n")) [] [] (c!"/b.cfg")).map (fun x => match x.2 with | .error (.notParsed _) => true | _ => false) =
    some true := by decide +kernel
example : get (Cfg.new St.init 48).1.cache 48 = .ok ⟨48, 0⟩ ∧ fileIsDirectory { isDir := fun p => p = c!"/d" } (c!"/d") = true := by decide +kernel

end Vital.CApi.CfgFile
