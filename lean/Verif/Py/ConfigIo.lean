import Verif.CApi.ConfigFile
import Verif.Py.ConfigBlock
/-
  The file functions of the Python class ConfigBlock: from_file, read, write and as_string (vital/bindings/python/vital/config_block.py) over the C functions
  (vital/bindings/c/config_block.cxx:393-487) over the C++ reader and writer; properties C274 (from_file and read), C275 (write), C276 (as_string).

  `usable n` is the number of bytes that a block from malloc( n ) really has, as in C211 - C213.  The texts of the C++ exceptions are a parameter (`what`).
-/
namespace Vital.Py.CBIo
open Vital Vital.Config Vital.CApi Vital.Parser Vital.Sys

/-- The Python exceptions: VitalConfigBlockIoException and its subclasses, and VitalBaseException. -/
inductive IoExn where
  | notFound (msg : Str) | notRead (msg : Str) | notParsed (msg : Str) | write (msg : Str) | io (msg : Str) | base (msg : Str)
  deriving DecidableEq

/-- The message that comes back through the error handle; `none` = written past its block. -/
-- models: vital/bindings/c/config_block.cxx:405-422, 479-484 and vital/bindings/c/helpers/c_utils.h:64-76
def handed (usable : Nat → Nat) (msg : Str) : Option Str :=
  if (cstr msg).length + 1 ≤ usable (cstr msg).length then some (cstr msg) else none

/-- Error code and text of a C++ exception in read_config_file_helper inside STANDARD_CATCH. -/
-- models: vital/bindings/c/config_block.cxx:393-425, vital/bindings/c/helpers/c_utils.h:89-116
def readError (what : PExc → Str) (e : PExc) : Int × Str :=
  match e with
  | .notFound _ => (1, what e)
  | .notParsed _ => (3, what e)
  | .config _ => (-1, message (.stdException (what e)))

/-- The same for vital_config_block_file_write. -/
-- models: vital/bindings/c/config_block.cxx:466-487
def writeError (what : WriteExc → Str) (e : WriteExc) : Int × Str :=
  match e with
  | .write => (1, what e)
  | .config _ => (-1, message (.stdException (what e)))

/-- propagate_exception with the map of from_file. -/
-- models: vital/bindings/python/vital/config_block.py:85-90, vital/bindings/python/vital/util/error_handle.py:67-83
def readExn (code : Int) (msg : Str) : IoExn :=
  if code = -1 then .io msg else if code = 1 then .notFound msg else if code = 2 then .notRead msg else if code = 3 then .notParsed msg else .base msg

-- models: vital/bindings/python/vital/config_block.py:435-439
def writeExn (code : Int) (msg : Str) : IoExn := if code = -1 then .io msg else if code = 1 then .write msg else .base msg

/-- `ConfigBlock.from_file`, `r` being the outcome of the C++ reader and `as` the addresses of the blocks it made.  On an error an object is made of the
    null pointer; it is collected without a call of the C side (config_block.py:118-121). -/
-- models: vital/bindings/python/vital/config_block.py:65-93 (from_file), vital/bindings/c/config_block.cxx:393-440
def fromFile (usable : Nat → Nat) (what : PExc → Str) (s : CB.St) (as : List Nat) (r : Heap × Except PExc Nat) : Option (CB.St × Except IoExn Nat) :=
  match r with
  | (h', .ok b) =>
    let a := (s.c.addr ++ as).getD b 0
    match store s.c.cache ⟨a, b⟩ with
    | (c, .ok ()) => some ({ s with c := ⟨h', s.c.addr ++ as, c⟩, objs := s.objs ++ [some a] }, .ok s.objs.length)
    | (c, .error _) =>
      (handed usable (message (.stdException (c!"Cannot store NULL pointer")))).map fun m =>
        ({ s with c := ⟨h', s.c.addr ++ as, c⟩ }, .error (readExn (-1) m))
  | (h', .error e) =>
    if e = .config .ub then none
    else (handed usable (readError what e).2).map fun m =>
      ({ s with c := ⟨h', s.c.addr ++ as, s.c.cache⟩ }, .error (readExn (readError what e).1 m))

/-- `x.read( path )`: the block of the file is merged and its object collected. -/
-- models: vital/bindings/python/vital/config_block.py:409-419 (read)
def readInto (usable : Nat → Nat) (what : PExc → Str) (s : CB.St) (as : List Nat) (x : Nat) (r : Heap × Except PExc Nat) : Option (CB.St × Except IoExn Unit) :=
  match fromFile usable what s as r with
  | none => none
  | some (s1, .error e) => some (s1, .error e)
  | some (s1, .ok y) => some ((CB.collect (CB.merge s1 x y).1 y).1, .ok ())

/-- A Python program may get `out` from `ConfigBlock.from_file( path )`. -/
def FromFile (usable : Nat → Nat) (what : PExc → Str) (w : World) (s : CB.St) (as : List Nat) (path : Str) (out : Option (CB.St × Except IoExn Nat)) : Prop :=
  ∃ h' r, ReadsFile w s.c.heap [] (cstr path) h' r ∧ out = fromFile usable what s as (h', r)

/-- The same for `x.read( path )`. -/
def Read (usable : Nat → Nat) (what : PExc → Str) (w : World) (s : CB.St) (as : List Nat) (x : Nat) (path : Str) (out : Option (CB.St × Except IoExn Unit)) : Prop :=
  ∃ h' r, ReadsFile w s.c.heap [] (cstr path) h' r ∧ out = readInto usable what s as x (h', r)

/-- `x.write( path )`: the file system after it, and the exception. -/
-- models: vital/bindings/python/vital/config_block.py:421-441 (write), vital/bindings/c/config_block.cxx:466-487
def write (usable : Nat → Nat) (what : WriteExc → Str) (dead : Str) (d : Disk) (w : World) (s : CB.St) (x : Nat) (path : Str) : Option (World × Except IoExn Unit) :=
  match get s.c.cache (s.ptr x) with
  | .error _ => (handed usable (message (.stdException dead))).map fun m => (w, .error (writeExn (-1) m))
  | .ok p =>
    match writeConfigFile d w s.c.heap p.tag (cstr path) with
    | (w', .ok ()) => some (w', .ok ())
    | (w', .error e) =>
      if e = .config .ub then none
      else (handed usable (writeError what e).2).map fun m => (w', .error (writeExn (writeError what e).1 m))

/-- The file system without the file. -/
def remove (w : World) (path : Str) : World :=
  { w with content := fun p => if p = path then none else w.content p, readable := fun p => if p = path then false else w.readable p }

/-- `x.as_string()`: the file system and the number of open descriptors after it; `fp` is the new name that mkstemp chose. -/
-- models: vital/bindings/python/vital/config_block.py:459-474 (as_string): nothing is cleaned up when write raises
def asString (usable : Nat → Nat) (what : WriteExc → Str) (dead : Str) (d : Disk) (w : World) (fds : Nat) (s : CB.St) (x : Nat) (fp : Str) :
    Option (World × Nat × Except IoExn Str) :=
  match write usable what dead d (World.store w fp []) s x fp with
  | none => none
  | some (w1, .error e) => some (w1, fds + 1, .error e)
  | some (w1, .ok ()) => some (remove w1 fp, fds + 1 - 1, .ok ((w1.content fp).getD []))

/-! ### Specification -/

/-- "raises": the documented exception for each C++ exception of the reader; the texts are C strings. -/
inductive ReadRaises (what : PExc → Str) : PExc → IoExn → Prop where
  | notFound (f : Str) : ReadRaises what (.notFound f) (.notFound (cstr (what (.notFound f))))
  | notParsed (f : Str) : ReadRaises what (.notParsed f) (.notParsed (cstr (what (.notParsed f))))
  | other (e : Exc) : ReadRaises what (.config e) (.io (cstr (c!"Caught exception in C interface: " ++ what (.config e))))

inductive WriteRaises (what : WriteExc → Str) : WriteExc → IoExn → Prop where
  | write : WriteRaises what .write (.write (cstr (what .write)))
  | other (e : Exc) : WriteRaises what (.config e) (.io (cstr (c!"Caught exception in C interface: " ++ what (.config e))))

/-- An address no handle has. -/
def Fresh (s : CB.St) (a : Nat) : Prop := a ≠ 0 ∧ s.c.cache.cache.find? a = none ∧ s.c.cache.count.find? a = none

/-- Everything about the other objects is as before. -/
def Keeps (s s' : CB.St) (a : Nat) : Prop :=
  s'.owed = s.owed ∧ (∀ q, q ≠ a → get s'.c.cache q = get s.c.cache q) ∧ ∀ x, x < s.objs.length → s'.objs[x]? = s.objs[x]?

/-- Full property C274: from_file gives an object for the block that the C++ reader makes or raises the documented exception; x.read( path ) merges all
    entries of that block into x, or raises and merges nothing. -/
def C274_statement (usable : Nat → Nat) : Prop := ∀ (what : PExc → Str) (w : World) (s : CB.St) (as : List Nat) (x bx : Nat) (path : Str) (h' : Heap) (r : Except PExc Nat),
  ReadsFile w s.c.heap [] (cstr path) h' r → r ≠ .error (.config .ub) → get s.c.cache (s.ptr x) = .ok ⟨s.ptr x, bx⟩ →
  (∀ b, r = .ok b → Fresh s ((s.c.addr ++ as).getD b 0)) →
    (∀ out, FromFile usable what w s as path out → match r with
      | .ok b => ∃ s', out = some (s', .ok s.objs.length) ∧ s'.c.heap = h' ∧ get s'.c.cache (s'.ptr s.objs.length) = .ok ⟨s'.ptr s.objs.length, b⟩
      | .error e => ∃ s' i, out = some (s', .error i) ∧ ReadRaises what e i) ∧
    (∀ out, Read usable what w s as x path out → match r with
      | .ok b => ∃ s', out = some (s', .ok ()) ∧ Config.mergeConfig h' bx b = (s'.c.heap, .ok ())
      | .error e => ∃ s' i, out = some (s', .error i) ∧ ReadRaises what e i ∧ s'.c.heap = h')

theorem handed_ok {usable : Nat → Nat} (hu : ∀ n, n + 1 ≤ usable n) (m : Str) : handed usable m = some (cstr m) := by
  unfold handed; rw [if_pos (hu _)]

theorem readRaises (what : PExc → Str) (e : PExc) : ReadRaises what e (readExn (readError what e).1 (cstr (readError what e).2)) := by
  cases e with
  | notFound f => exact .notFound f
  | notParsed f => exact .notParsed f
  | config x => exact .other x

theorem writeRaises (what : WriteExc → Str) (e : WriteExc) : WriteRaises what e (writeExn (writeError what e).1 (cstr (writeError what e).2)) := by
  cases e with
  | write => exact .write
  | config x => exact .other x

theorem store_fresh {c : Cache} {a : Nat} (b : Nat) (h0 : a ≠ 0) (h : c.cache.find? a = none) :
    store c ⟨a, b⟩ = (⟨c.cache.insert a ⟨a, b⟩, c.count.insert a 1⟩, .ok ()) := by simp [store, h0, OMap.contains, h]

/-- What holds of from_file, in any state: with an allocator with a spare byte, the object stands for the block the C++ reader made, or the documented
    exception is raised with its text, and no object is left; everything else stays.
    Missing: allocators without a spare byte. -/
theorem C274_from_file_partial (usable : Nat → Nat) (hu : ∀ n, n + 1 ≤ usable n) (what : PExc → Str) (w : World) (s : CB.St) (as : List Nat) (path : Str)
    (h' : Heap) (r : Except PExc Nat) (hr : ReadsFile w s.c.heap [] (cstr path) h' r) (hub : r ≠ .error (.config .ub))
    (hf : ∀ b, r = .ok b → Fresh s ((s.c.addr ++ as).getD b 0)) (out : Option (CB.St × Except IoExn Nat)) (ho : FromFile usable what w s as path out) :
    match r with
    | .ok b => ∃ s', out = some (s', .ok s.objs.length) ∧ s'.c.heap = h' ∧ get s'.c.cache (s'.ptr s.objs.length) = .ok ⟨s'.ptr s.objs.length, b⟩ ∧
        s'.objs.length = s.objs.length + 1 ∧ Keeps s s' ((s.c.addr ++ as).getD b 0)
    | .error e => ∃ s' i, out = some (s', .error i) ∧ ReadRaises what e i ∧ s'.c.heap = h' ∧ s'.c.cache = s.c.cache ∧ s'.objs = s.objs ∧ s'.owed = s.owed := by
  obtain ⟨h2, r2, hr2, rfl⟩ := ho
  obtain ⟨rfl, rfl⟩ := reads_det hr hr2
  cases r with
  | ok b =>
    obtain ⟨h0, h1, -⟩ := hf b rfl
    dsimp only
    unfold fromFile
    simp only [store_fresh b h0 h1]
    refine ⟨_, rfl, rfl, ?_, by simp, rfl, ?_, ?_⟩
    · simp only [CB.St.ptr, List.getElem?_append_right (Nat.le_refl _), Nat.sub_self, List.getElem?_cons_zero, Option.getD_some]
      rw [CApi.get, if_neg h0, OMap.find?_insert, if_pos rfl]
    · intro q hq
      simp only [CApi.get, OMap.find?_insert, if_neg hq]
    · intro x hx
      rw [List.getElem?_append_left hx]
  | error e =>
    have he : e ≠ .config .ub := fun x => hub (by rw [x])
    dsimp only
    unfold fromFile
    simp only [if_neg he, handed_ok hu, Option.map_some]
    exact ⟨_, _, rfl, readRaises what e, rfl, rfl, rfl, rfl⟩

theorem erase_fresh {c : Cache} {a b : Nat} (h0 : a ≠ 0) (h : c.cache.find? a = none) :
    ∀ q, get (erase ⟨c.cache.insert a ⟨a, b⟩, c.count.insert a 1⟩ a).1 q = if q = a then .error .noEntry else get c q := by
  intro q
  have hd : dec 1 = 0 := by decide
  by_cases hq : q = a
  · subst hq
    simp [erase, h0, hd, CApi.get, OMap.find?_insert, OMap.find?_erase]
  · simp [erase, h0, hd, CApi.get, OMap.find?_insert, OMap.find?_erase, hq]

/-- What holds of read, in any state: the C++ call `merge_config` of the file's block into the object's block is made and nothing is left of the file's
    object, or the documented exception is raised and nothing is merged.
    Missing: merge_config may stop at a read-only entry of x; its exception is swallowed. -/
theorem C274_read_partial (usable : Nat → Nat) (hu : ∀ n, n + 1 ≤ usable n) (what : PExc → Str) (w : World) (s : CB.St) (as : List Nat) (x bx : Nat) (path : Str)
    (h' : Heap) (r : Except PExc Nat) (hr : ReadsFile w s.c.heap [] (cstr path) h' r) (hub : r ≠ .error (.config .ub)) (hx : x < s.objs.length)
    (hg : get s.c.cache (s.ptr x) = .ok ⟨s.ptr x, bx⟩) (hf : ∀ b, r = .ok b → Fresh s ((s.c.addr ++ as).getD b 0)) (out : Option (CB.St × Except IoExn Unit))
    (ho : Read usable what w s as x path out) :
    match r with
    | .ok b => ∃ s', out = some (s', .ok ()) ∧ s'.c.heap = (Config.mergeConfig h' bx b).1 ∧ (∀ q, q ≠ (s.c.addr ++ as).getD b 0 → get s'.c.cache q = get s.c.cache q) ∧
        (∀ p, get s'.c.cache ((s.c.addr ++ as).getD b 0) ≠ .ok p) ∧ s'.owed = s.owed ∧ ∀ y, y < s.objs.length → s'.objs[y]? = s.objs[y]?
    | .error e => ∃ s' i, out = some (s', .error i) ∧ ReadRaises what e i ∧ s'.c.heap = h' ∧ s'.c.cache = s.c.cache ∧ s'.objs = s.objs ∧ s'.owed = s.owed := by
  obtain ⟨h2, r2, hr2, rfl⟩ := ho
  obtain ⟨rfl, rfl⟩ := reads_det hr hr2
  cases r with
  | ok b =>
    obtain ⟨h0, h1, -⟩ := hf b rfl
    dsimp only
    generalize ha : (s.c.addr ++ as).getD b 0 = a at *
    have hxa : s.ptr x ≠ a := by
      intro e
      rw [e, CApi.get, if_neg h0, h1] at hg
      cases hg
    unfold readInto fromFile
    simp only [ha, store_fresh b h0 h1]
    refine ⟨_, rfl, ?_⟩
    have hp : ({ s with c := ⟨h', s.c.addr ++ as, ⟨s.c.cache.cache.insert a ⟨a, b⟩, s.c.cache.count.insert a 1⟩⟩, objs := s.objs ++ [some a] } : CB.St).ptr x = s.ptr x := by
      simp only [CB.St.ptr, List.getElem?_append_left hx]
    have hy : ({ s with c := ⟨h', s.c.addr ++ as, ⟨s.c.cache.cache.insert a ⟨a, b⟩, s.c.cache.count.insert a 1⟩⟩, objs := s.objs ++ [some a] } : CB.St).ptr s.objs.length = a := by
      simp [CB.St.ptr]
    have g1 : get ⟨s.c.cache.cache.insert a ⟨a, b⟩, s.c.cache.count.insert a 1⟩ (s.ptr x) = .ok ⟨s.ptr x, bx⟩ := by
      rw [← hg]
      simp only [CApi.get, OMap.find?_insert, if_neg hxa]
    have g2 : get ⟨s.c.cache.cache.insert a ⟨a, b⟩, s.c.cache.count.insert a 1⟩ a = .ok ⟨a, b⟩ := by
      rw [CApi.get, if_neg h0, OMap.find?_insert, if_pos rfl]
    have hm : (CB.merge { s with c := ⟨h', s.c.addr ++ as, ⟨s.c.cache.cache.insert a ⟨a, b⟩, s.c.cache.count.insert a 1⟩⟩, objs := s.objs ++ [some a] } x s.objs.length).1 =
        { s with c := ⟨(Config.mergeConfig h' bx b).1, s.c.addr ++ as, ⟨s.c.cache.cache.insert a ⟨a, b⟩, s.c.cache.count.insert a 1⟩⟩, objs := s.objs ++ [some a] } := by
      unfold CB.merge Cfg.mergeConfig
      simp only [hp, hy, g1, g2]
    rw [hm]
    have hy2 : ({ s with c := ⟨(Config.mergeConfig h' bx b).1, s.c.addr ++ as, ⟨s.c.cache.cache.insert a ⟨a, b⟩, s.c.cache.count.insert a 1⟩⟩, objs := s.objs ++ [some a] } : CB.St).ptr s.objs.length = a := by
      simp [CB.St.ptr]
    unfold CB.collect
    rw [hy2, if_neg h0]
    simp only [Cfg.destroy]
    have he := erase_fresh (b := b) h0 h1
    refine ⟨trivial, ?_, ?_, trivial, ?_⟩
    · intro q hq; rw [he q, if_neg hq]
    · intro p; rw [he a, if_pos rfl]; exact fun e => by cases e
    · intro y hy'
      rw [List.getElem?_set_ne (by omega), List.getElem?_append_left hy']
  | error e =>
    have he : e ≠ .config .ub := fun x => hub (by rw [x])
    dsimp only
    unfold readInto fromFile
    simp only [if_neg he, handed_ok hu, Option.map_some]
    exact ⟨_, _, rfl, readRaises what e, rfl, rfl, rfl, rfl⟩

/-- A program with one block, in which `one` is set to 0 and read-only, that reads a file with `one = 1`. -/
def roSt : CB.St := (CB.run (fun n => n + 1) (fun _ => []) [] CB.St.init [(8, .new none), (0, .setValue 0 (c!"one") (c!"0") none), (0, .markReadOnly 0 (c!"one"))]).1

theorem roRead : ∃ h', ReadsFile CfgFile.oneFile roSt.c.heap [] (c!"/a.cfg") h' (.ok 1) ∧ (Config.mergeConfig h' 0 1).2 ≠ .ok () := by
  have h : (readFileF 20 CfgFile.oneFile roSt.c.heap [] (c!"/a.cfg")).isSome = true := by decide +kernel
  obtain ⟨⟨h', r⟩, hx⟩ := Option.isSome_iff_exists.1 h
  have hr : (readFileF 20 CfgFile.oneFile roSt.c.heap [] (c!"/a.cfg")).map (·.2) = some (.ok 1) := by decide +kernel
  have hm : (readFileF 20 CfgFile.oneFile roSt.c.heap [] (c!"/a.cfg")).map (fun o => decide ((Config.mergeConfig o.1 0 1).2 = .ok ())) = some false := by decide +kernel
  rw [hx] at hr hm
  simp only [Option.map_some, Option.some.injEq] at hr hm
  subst hr
  exact ⟨h', ⟨20, hx⟩, of_decide_eq_false hm⟩

/-- C274 is false of the code, with any allocator: reading a file that sets a read-only entry raises nothing and merges only part of the file. -/
theorem C274_refuted (usable : Nat → Nat) : ¬ C274_statement usable := by
  intro h
  obtain ⟨h', h1, h2⟩ := roRead
  have e := (h (fun _ => []) CfgFile.oneFile roSt [16] 0 0 (c!"/a.cfg") h' (.ok 1) h1 (fun e => by cases e) (by decide +kernel)
    (by intro b e; cases e; exact ⟨by decide +kernel, by decide +kernel, by decide +kernel⟩)).2 _ ⟨h', .ok 1, h1, rfl⟩
  obtain ⟨s', -, h3⟩ := e
  exact h2 (by rw [h3])

/-! ### C275: write -/

/-- Full property C275: when x.write( path ) raises nothing, the file holds the text of the block; otherwise it raises the documented exception. -/
def C275_statement (usable : Nat → Nat) : Prop := ∀ (what : WriteExc → Str) (dead : Str) (d : Disk) (w : World) (s : CB.St) (x b : Nat) (path : Str),
  get s.c.cache (s.ptr x) = .ok ⟨s.ptr x, b⟩ → (writeConfigFile d w s.c.heap b (cstr path)).2 ≠ .error (.config .ub) →
  ∃ w' o, write usable what dead d w s x path = some (w', o) ∧ w' = (writeConfigFile d w s.c.heap b (cstr path)).1 ∧
    (o = .ok () → w'.content (cstr path) = some (writeConfig s.c.heap b).1) ∧
    match (writeConfigFile d w s.c.heap b (cstr path)).2 with
    | .ok () => o = .ok ()
    | .error e => ∃ i, o = .error i ∧ WriteRaises what e i

/-- What holds: with an allocator with a spare byte, write does what the C++ call does and raises the documented exception exactly when that throws; when it
    raises nothing and the file can be opened, the file holds the text of the block.  For an object without block it raises and writes nothing.
    Missing: a file that cannot be opened for writing is not noticed. -/
theorem C275_write_partial (usable : Nat → Nat) (hu : ∀ n, n + 1 ≤ usable n) (what : WriteExc → Str) (dead : Str) (d : Disk) (w : World) (s : CB.St) (x : Nat) (path : Str) :
    (∀ b, get s.c.cache (s.ptr x) = .ok ⟨s.ptr x, b⟩ → (writeConfigFile d w s.c.heap b (cstr path)).2 ≠ .error (.config .ub) →
      ∃ w' o, write usable what dead d w s x path = some (w', o) ∧ w' = (writeConfigFile d w s.c.heap b (cstr path)).1 ∧
        (match (writeConfigFile d w s.c.heap b (cstr path)).2 with
          | .ok () => o = .ok ()
          | .error e => ∃ i, o = .error i ∧ WriteRaises what e i) ∧
        (o = .ok () → (∀ w1, d.canWrite w1 (cstr path) = true) → w'.content (cstr path) = some (writeConfig s.c.heap b).1)) ∧
    (∀ err, get s.c.cache (s.ptr x) = .error err → write usable what dead d w s x path = some (w, .error (.io (cstr (c!"Caught exception in C interface: " ++ dead))))) := by
  constructor
  · intro b hg hub
    unfold write
    simp only [hg]
    cases hw : writeConfigFile d w s.c.heap b (cstr path) with
    | mk w' r =>
      rw [hw] at hub
      cases r with
      | ok u =>
        refine ⟨w', .ok (), rfl, rfl, rfl, fun _ hd => ?_⟩
        unfold writeConfigFile at hw
        split at hw
        · cases hw
        · dsimp only at hw
          split at hw
          · cases hw
          · rename_i w1 _
            rw [if_pos (hd w1)] at hw
            have := congrArg Prod.fst hw
            dsimp only at this
            rw [← this]
            simp [World.store]
      | error e =>
        have he : e ≠ .config .ub := fun x => hub (by rw [x])
        simp only [if_neg he, handed_ok hu, Option.map_some]
        exact ⟨w', _, rfl, rfl, ⟨_, rfl, writeRaises what e⟩, fun h => by cases h⟩
  · intro err hg
    unfold write
    simp only [hg, handed_ok hu, Option.map_some]
    rfl

/-- C275 is false of the code, with any allocator: writing to a file that cannot be opened raises nothing. -/
theorem C275_refuted (usable : Nat → Nat) : ¬ C275_statement usable := by
  intro h
  let s : CB.St := (CB.run (fun n => n + 1) (fun _ => []) [] CB.St.init [(8, .new none), (0, .setValue 0 (c!"one") (c!"0") none)]).1
  let w : World := { isDir := fun p => p = c!"/" }
  let d : Disk := ⟨fun _ _ => false, fun _ _ => none⟩
  obtain ⟨w', o, h1, h2, h3, h4⟩ := h (fun _ => []) [] d w s 0 0 (c!"/f") (by decide +kernel) (by decide +kernel)
  have e1 : (write usable (fun _ => []) [] d w s 0 (c!"/f")).map (fun x => (x.1.content (c!"/f"), match x.2 with | .ok () => true | .error _ => false)) = some (none, true) := by
    have : get s.c.cache (s.ptr 0) = .ok ⟨s.ptr 0, 0⟩ := by decide +kernel
    unfold write
    simp only [this]
    have e2 : (writeConfigFile d w s.c.heap 0 (cstr (c!"/f"))).2 = .ok () := by decide +kernel
    have e3 : (writeConfigFile d w s.c.heap 0 (cstr (c!"/f"))).1.content (c!"/f") = none := by decide +kernel
    revert e2 e3
    generalize writeConfigFile d w s.c.heap 0 (cstr (c!"/f")) = z
    obtain ⟨z1, z2⟩ := z
    intro e2 e3
    dsimp only at e2 e3
    subst e2
    simp [e3]
  rw [h1] at e1
  simp only [Option.map_some, Option.some.injEq, Prod.mk.injEq] at e1
  obtain ⟨e2, e3⟩ := e1
  cases o with
  | error e => cases e3
  | ok u =>
    have h5 := h3 rfl
    have h6 : cstr (c!"/f") = c!"/f" := by decide +kernel
    rw [h6, e2] at h5
    cases h5

/-! ### C276: as_string -/

/-- What mkstemp guarantees of the new name: its directory is there, it is not a directory, and the file can be written. -/
structure TempName (d : Disk) (w : World) (fp : Str) : Prop where
  clean : nul ∉ fp
  new : w.content fp = none
  unread : w.readable fp = false
  file : fileIsDirectory (World.store w fp []) fp = false
  dir : fileIsDirectory (World.store w fp []) (getFilenamePath (World.store w fp []) (collapseFullPath (World.store w fp []) fp)) = true
  opens : ∀ w1, d.canWrite w1 fp = true

/-- Full property C276: as_string gives the text that write puts into a file, or raises; files and open descriptors are as before. -/
def C276_statement (usable : Nat → Nat) : Prop := ∀ (what : WriteExc → Str) (dead : Str) (d : Disk) (w : World) (fds : Nat) (s : CB.St) (x b : Nat) (fp : Str),
  TempName d w fp → get s.c.cache (s.ptr x) = .ok ⟨s.ptr x, b⟩ → (writeConfig s.c.heap b).2 ≠ .error (.config .ub) →
  ∃ w' fds' o, asString usable what dead d w fds s x fp = some (w', fds', o) ∧ w'.content = w.content ∧ fds' = fds ∧
    match (writeConfig s.c.heap b).2 with
    | .ok () => o = .ok (writeConfig s.c.heap b).1
    | .error e => ∃ i, o = .error i ∧ WriteRaises what e i

theorem write_temp {d : Disk} {w : World} {fp : Str} (ht : TempName d w fp) (h : Heap) (b : Nat) :
    writeConfigFile d (World.store w fp []) h b fp = (World.store (World.store w fp []) fp (writeConfig h b).1, (writeConfig h b).2) := by
  unfold writeConfigFile
  rw [if_neg (by rw [ht.file]; decide)]
  simp only [ht.dir, if_true, ht.opens]

/-- What holds: for a block with entries the text is exactly what write puts into a file, and nothing is left behind; for a block that cannot be written the
    documented exception is raised.
    Missing: in that case the temporary file (with what had been written) and one open descriptor stay behind. -/
theorem C276_as_string_partial (usable : Nat → Nat) (hu : ∀ n, n + 1 ≤ usable n) (what : WriteExc → Str) (dead : Str) (d : Disk) (w : World) (fds : Nat) (s : CB.St)
    (x b : Nat) (fp : Str) (ht : TempName d w fp) (hg : get s.c.cache (s.ptr x) = .ok ⟨s.ptr x, b⟩) (hub : (writeConfig s.c.heap b).2 ≠ .error (.config .ub)) :
    match (writeConfig s.c.heap b).2 with
    | .ok () => ∃ w', asString usable what dead d w fds s x fp = some (w', fds, .ok (writeConfig s.c.heap b).1) ∧ w'.content = w.content ∧ w'.readable = w.readable ∧ w'.isDir = w.isDir
    | .error e => ∃ w' i, asString usable what dead d w fds s x fp = some (w', fds + 1, .error i) ∧ WriteRaises what e i ∧
        w'.content fp = some (writeConfig s.c.heap b).1 := by
  have hc : cstr fp = fp := cstr_self ht.clean
  have hw := write_temp ht s.c.heap b
  unfold asString write
  simp only [hg, hc, hw]
  cases hr : (writeConfig s.c.heap b).2 with
  | ok u =>
    refine ⟨remove (World.store (World.store w fp []) fp (writeConfig s.c.heap b).1) fp, ?_, ?_, ?_, rfl⟩
    · simp [World.store]
    · funext p
      by_cases hp : p = fp
      · subst hp; simp [remove, ht.new]
      · simp [remove, World.store, hp]
    · funext p
      by_cases hp : p = fp
      · subst hp; simp [remove, ht.unread]
      · simp [remove, World.store, hp]
  | error e =>
    have he : e ≠ .config .ub := fun x => hub (by rw [hr, x])
    dsimp only
    rw [if_neg he, handed_ok hu]
    refine ⟨_, _, rfl, writeRaises what e, ?_⟩
    simp [World.store]

/-- In every state, as_string of a block without entries raises VitalConfigBlockIoFileWriteException and leaves an empty file and an open descriptor. -/
theorem C276_empty (usable : Nat → Nat) (hu : ∀ n, n + 1 ≤ usable n) (what : WriteExc → Str) (dead : Str) (d : Disk) (w : World) (fds : Nat) (s : CB.St)
    (x b : Nat) (fp : Str) (ht : TempName d w fp) (hg : get s.c.cache (s.ptr x) = .ok ⟨s.ptr x, b⟩) (he : availableValues s.c.heap b = .ok []) :
    ∃ w', asString usable what dead d w fds s x fp = some (w', fds + 1, .error (.write (cstr (what .write)))) ∧ w'.content fp = some [] := by
  have hwc : writeConfig s.c.heap b = ([], .error .write) := by unfold writeConfig; rw [he]; rfl
  have := C276_as_string_partial usable hu what dead d w fds s x b fp ht hg (by rw [hwc]; exact fun e => by cases e)
  rw [hwc] at this
  obtain ⟨w', i, h1, h2, h3⟩ := this
  cases h2
  exact ⟨w', h1, h3⟩

def tmpWorld : World := { isDir := fun p => p = c!"/" || p = c!"/tmp" }
def tmpDisk : Disk := ⟨fun _ _ => true, fun _ _ => none⟩

theorem tmp_ok : TempName tmpDisk tmpWorld (c!"/tmp/t") :=
  ⟨by decide +kernel, rfl, rfl, by decide +kernel, by decide +kernel, fun _ => rfl⟩

/-- C276 is false of the code: a new block is enough. -/
theorem C276_refuted (usable : Nat → Nat) (hu : ∀ n, n + 1 ≤ usable n) : ¬ C276_statement usable := by
  intro h
  let s : CB.St := (CB.run (fun n => n + 1) (fun _ => []) [] CB.St.init [(8, .new none)]).1
  have hg : get s.c.cache (s.ptr 0) = .ok ⟨s.ptr 0, 0⟩ := by decide +kernel
  obtain ⟨w1, f1, o1, e1, -, e2, -⟩ := h (fun _ => []) [] tmpDisk tmpWorld 0 s 0 0 (c!"/tmp/t") tmp_ok hg (by decide +kernel)
  obtain ⟨w2, e3, -⟩ := C276_empty usable hu (fun _ => []) [] tmpDisk tmpWorld 0 s 0 0 (c!"/tmp/t") tmp_ok hg (by decide +kernel)
  rw [e1] at e3
  simp only [Option.some.injEq, Prod.mk.injEq] at e3
  omega

/-- A run of all: the file is read into a block, the block given as text. -/
example : ((readFileF 20 CfgFile.oneFile [] [] (c!"/a.cfg")).bind (fun r => fromFile (fun n => n + 1) (fun _ => []) CB.St.init [16] r)).map (fun p => (match p.2 with | .ok y => y | .error _ => 9)) = some 0 := by
  decide +kernel

example : let s : CB.St := (CB.run (fun n => n + 1) (fun _ => []) [] CB.St.init [(8, .new none), (0, .setValue 0 (c!"one") (c!"0") none)]).1
    (asString (fun n => n + 1) (fun _ => []) [] tmpDisk tmpWorld 3 s 0 (c!"/tmp/t")).map (fun r => (r.2.1, match r.2.2 with | .ok t => t | .error _ => [])) = some (3, c!"one = 0\n") := by
  decide +kernel

end Vital.Py.CBIo
