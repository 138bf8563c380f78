import Verif.Py.ConfigBlock
/-
  Calls of algorithms from Python: ImageIo.load and save, ConvertImage.convert, TrackFeatures.track (vital/bindings/python/vital/algo/image_io.py,
  convert_image.py, track_features.py) and the C functions under them (vital/bindings/c/algo_def/*.cxx); property C271.

  The C++ implementations are a parameter: each call says what the implementation answers.  C++ objects are numbered; `addr` is the address of an
  object.  The algorithm object itself is alive (C144).  Texts of exceptions of the handle caches are a parameter (`why`).  `usable` as in C211.
-/
namespace Vital.Py.Calls
open Vital Vital.CApi

inductive Kind where
  | image | tracks
  deriving DecidableEq

/-- What the C++ implementation does: throw (with a text), or return a shared pointer to an object, or a null one. -/
inductive Ret where
  | throws (what : Str)
  | gives (obj : Option Nat)
  deriving DecidableEq

/-- One statement; Python objects are numbered in the order of their creation, `none` is None. -/
inductive Op where
  | load (file : Str) (r : Ret)
  | save (img : Option Nat) (file : Str) (r : Ret)
  | convert (img : Option Nat) (r : Ret)
  | track (prev : Option Nat) (frame : Int) (img : Option Nat) (mask : Option Nat) (r : Ret)
  | collect (x : Nat)
  deriving DecidableEq

/-- A call that reached an implementation, with the C++ objects it was given. -/
inductive Seen where
  | load (file : Str)
  | save (img : Nat) (file : Str)
  | convert (img : Nat)
  | track (prev frame img : Nat) (mask : Option Nat)
  deriving DecidableEq

inductive Exn where
  /-- ctypes.ArgumentError: an object of another class -/
  | argument
  /-- VitalBaseException -/
  | vital (msg : Str)
  deriving DecidableEq

inductive Val where
  | none
  | obj (x : Nat)
  deriving DecidableEq

/-- `none` = undefined behaviour -/
abbrev Out := Option (Except Exn Val)

structure St where
  img : Cache
  trk : Cache
  /-- class and pointer of each Python object, `none` once it is collected -/
  objs : List (Option (Kind × Nat))
  seen : List Seen

def St.init : St := ⟨CApi.empty, CApi.empty, [], []⟩

def St.cache (s : St) : Kind → Cache
  | .image => s.img
  | .tracks => s.trk

def St.put (s : St) (k : Kind) (c : Cache) : St :=
  match k with
  | .image => { s with img := c }
  | .tracks => { s with trk := c }

/-- The three ways the caches complain. -/
inductive Why where
  | get (e : Err) | storeNull | eraseNull

/-- ctypes: the pointer passed for an argument of class `k`. -/
-- models: vital/bindings/python/vital/util/VitalObject.py:170-184 (_as_parameter_); None is a null pointer, another class an ArgumentError
def param (s : St) (k : Kind) (x : Option Nat) : Except Exn Nat :=
  match x with
  | none => .ok 0
  | some x =>
    match (s.objs[x]?).getD none with
    | some (k', p) => if k' = k then .ok p else .error .argument
    | none => .error .argument

/-- The end of a C function that returns an object: store it in the cache and return the pointer. -/
-- models: vital/bindings/c/algo_def/image_io.cxx:52-58, convert_image.cxx:56-60, track_features.cxx:60-69, 84-95
def giveBack (addr : Nat → Nat) (why : Why → Str) (s : St) (k : Kind) (r : Ret) : St × Except Str Nat :=
  match r with
  | .throws w => (s, .error w)
  | .gives none => (s, .error (why .storeNull))
  | .gives (some t) =>
    match store (s.cache k) ⟨addr t, t⟩ with
    | (_, .error _) => (s, .error (why .storeNull))
    | (c, .ok _) => (s.put k c, .ok (addr t))

-- models: vital/bindings/c/algo_def/image_io.cxx:48-60 (vital_algorithm_image_io_load)
def cLoad (addr : Nat → Nat) (why : Why → Str) (s : St) (file : Str) (r : Ret) : St × Except Str Nat :=
  giveBack addr why { s with seen := s.seen ++ [.load file] } .image r

-- models: vital/bindings/c/algo_def/image_io.cxx:64-74 (vital_algorithm_image_io_save)
def cSave (why : Why → Str) (s : St) (file : Str) (p : Nat) (r : Ret) : St × Except Str Unit :=
  match get s.img p with
  | .error e => (s, .error (why (.get e)))
  | .ok sp => ({ s with seen := s.seen ++ [.save sp.tag file] }, match r with | .throws w => .error w | .gives _ => .ok ())

-- models: vital/bindings/c/algo_def/convert_image.cxx:47-62 (vital_algorithm_convert_image_convert)
def cConvert (addr : Nat → Nat) (why : Why → Str) (s : St) (p : Nat) (r : Ret) : St × Except Str Nat :=
  match get s.img p with
  | .error e => (s, .error (why (.get e)))
  | .ok sp => giveBack addr why { s with seen := s.seen ++ [.convert sp.tag] } .image r

-- models: vital/bindings/c/algo_def/track_features.cxx:49-70 (vital_algorithm_track_features_track), 73-98 (track_with_mask, `mask` some pointer);
-- the order in which the arguments are looked up is the compiler's choice, here: tracks, image, mask
def cTrack (addr : Nat → Nat) (why : Why → Str) (s : St) (p frame q : Nat) (mask : Option Nat) (r : Ret) : St × Except Str Nat :=
  match get s.trk p with
  | .error e => (s, .error (why (.get e)))
  | .ok ts =>
    match get s.img q with
    | .error e => (s, .error (why (.get e)))
    | .ok im =>
      match mask with
      | none => giveBack addr why { s with seen := s.seen ++ [.track ts.tag frame im.tag none] } .tracks r
      | some mp =>
        match get s.img mp with
        | .error e => (s, .error (why (.get e)))
        | .ok mk => giveBack addr why { s with seen := s.seen ++ [.track ts.tag frame im.tag (some mk.tag)] } .tracks r

def newObj (s : St) (k : Kind) (p : Nat) : St × Out :=
  ({ s with objs := s.objs ++ [some (k, p)] }, some (.ok (.obj s.objs.length)))

/-- `with VitalErrorHandle()` around a call that failed with text `w`. -/
-- models: vital/bindings/python/vital/util/error_handle.py:52-83
def raised (usable : Nat → Nat) (w : Str) : Out :=
  match Py.CB.caught usable w with
  | none => none
  | some m => some (.error (.vital m))

/-- The same when the statement has made an object from the null pointer first, inside the `with`: it is collected, its `__del__` fails (which Python
    reports on stderr only). -/
-- models: vital/bindings/python/vital/algo/convert_image.py:60-63, track_features.py:84-88; VitalObject.py:153-155; image_container.py:70-74
def raisedAfterObject (usable : Nat → Nat) (why : Why → Str) (w : Str) : Out :=
  match Py.CB.caught usable (why .eraseNull) with
  | none => none
  | some _ => raised usable w

-- models: vital/bindings/python/vital/algo/image_io.py:53-71 (load): the object is made after the `with`
def load (usable : Nat → Nat) (addr : Nat → Nat) (why : Why → Str) (s : St) (file : Str) (r : Ret) : St × Out :=
  match cLoad addr why s (cstr file) r with
  | (s', .error w) => (s', raised usable w)
  | (s', .ok p) => newObj s' .image p

-- models: vital/bindings/python/vital/algo/image_io.py:73-90 (save)
def save (usable : Nat → Nat) (why : Why → Str) (s : St) (img : Option Nat) (file : Str) (r : Ret) : St × Out :=
  match param s .image img with
  | .error e => (s, some (.error e))
  | .ok p =>
    match cSave why s (cstr file) p r with
    | (s', .error w) => (s', raised usable w)
    | (s', .ok _) => (s', some (.ok .none))

-- models: vital/bindings/python/vital/algo/convert_image.py:48-63 (convert)
def convert (usable : Nat → Nat) (addr : Nat → Nat) (why : Why → Str) (s : St) (img : Option Nat) (r : Ret) : St × Out :=
  match param s .image img with
  | .error e => (s, some (.error e))
  | .ok p =>
    match cConvert addr why s p r with
    | (s', .error w) => (s', raisedAfterObject usable why w)
    | (s', .ok q) => newObj s' .image q

/-- `if mask:` with VitalObject.__nonzero__; None is false. -/
-- models: vital/bindings/python/vital/algo/track_features.py:72-79, VitalObject.py:157-163
def maskParam (s : St) (mask : Option Nat) : Except Exn (Option Nat) :=
  match mask with
  | none => .ok none
  | some m =>
    match (s.objs[m]?).getD none with
    | none => .error .argument
    | some (k, p) => if p = 0 then .ok none else if k = .image then .ok (some p) else .error .argument

-- models: vital/bindings/python/vital/algo/track_features.py:50-88 (track); ctypes.c_uint keeps 32 bits
def track (usable : Nat → Nat) (addr : Nat → Nat) (why : Why → Str) (s : St) (prev : Option Nat) (frame : Int) (img mask : Option Nat) (r : Ret) : St × Out :=
  match maskParam s mask, param s .tracks prev, param s .image img with
  | .ok m, .ok p, .ok q =>
    match cTrack addr why s p (frame % (2 : Int) ^ 32).toNat q m r with
    | (s', .error w) => (s', raisedAfterObject usable why w)
    | (s', .ok t) => newObj s' .tracks t
  | .error e, _, _ => (s, some (.error e))
  | _, .error e, _ => (s, some (.error e))
  | _, _, .error e => (s, some (.error e))

-- models: VitalObject.py:153-155 (__del__), image_container.py:70-74, track_set.py:97-101 (_destroy) with c_utils.h:231-250 (erase)
def collect (s : St) (x : Nat) : St × Out :=
  match (s.objs[x]?).getD none with
  | none => (s, some (.ok .none))
  | some (k, p) => ({ s.put k (erase (s.cache k) p).1 with objs := s.objs.set x none }, some (.ok .none))

def step (usable : Nat → Nat) (addr : Nat → Nat) (why : Why → Str) (s : St) : Op → St × Out
  | .load f r => load usable addr why s f r
  | .save i f r => save usable why s i f r
  | .convert i r => convert usable addr why s i r
  | .track p f i m r => track usable addr why s p f i m r
  | .collect x => collect s x

def run (usable : Nat → Nat) (addr : Nat → Nat) (why : Why → Str) (s : St) : List Op → St × List Out
  | [] => (s, [])
  | op :: ops => ((run usable addr why (step usable addr why s op).1 ops).1, (step usable addr why s op).2 :: (run usable addr why (step usable addr why s op).1 ops).2)

/-! ### Specification: Python objects stand for C++ objects -/

/-- The C++ object each Python object stands for, and the calls the implementations got. -/
structure Sp where
  objs : List (Option (Kind × Nat))
  seen : List Seen

inductive Arg where
  | wrong
  | null
  | obj (t : Nat)
  deriving DecidableEq

/-- What an argument stands for. -/
def Sp.arg (s : Sp) (k : Kind) (x : Option Nat) : Arg :=
  match x with
  | none => .null
  | some x =>
    match (s.objs[x]?).getD none with
    | some (k', t) => if k' = k then .obj t else .wrong
    | none => .wrong

/-- The message of an exception. -/
def msg (w : Str) : Str := cstr (c!"Caught exception in C interface: " ++ w)

def fails (w : Str) : Out := some (.error (.vital (msg w)))

/-- The answer of the implementation as a new Python object, or an exception. -/
def Sp.answer (s : Sp) (why : Why → Str) (k : Kind) : Ret → Sp × Out
  | .throws w => (s, fails w)
  | .gives none => (s, fails (why .storeNull))
  | .gives (some t) => ({ s with objs := s.objs ++ [some (k, t)] }, some (.ok (.obj s.objs.length)))

def Sp.saw (s : Sp) (x : Seen) : Sp := { s with seen := s.seen ++ [x] }

def spec (why : Why → Str) (s : Sp) : Op → Sp × Out
  | .load f r => (s.saw (.load (cstr f))).answer why .image r
  | .save i f r =>
    match s.arg .image i with
    | .wrong => (s, some (.error .argument))
    | .null => (s, fails (why (.get .nullPointer)))
    | .obj t => (s.saw (.save t (cstr f)), match r with | .throws w => fails w | .gives _ => some (.ok .none))
  | .convert i r =>
    match s.arg .image i with
    | .wrong => (s, some (.error .argument))
    | .null => (s, fails (why (.get .nullPointer)))
    | .obj t => (s.saw (.convert t)).answer why .image r
  | .track p f i m r =>
    match s.arg .image m, s.arg .tracks p, s.arg .image i with
    | .wrong, _, _ => (s, some (.error .argument))
    | _, .wrong, _ => (s, some (.error .argument))
    | _, _, .wrong => (s, some (.error .argument))
    | _, .null, _ => (s, fails (why (.get .nullPointer)))
    | _, _, .null => (s, fails (why (.get .nullPointer)))
    | .null, .obj ts, .obj im => (s.saw (.track ts (f % (2 : Int) ^ 32).toNat im none)).answer why .tracks r
    | .obj mk, .obj ts, .obj im => (s.saw (.track ts (f % (2 : Int) ^ 32).toNat im (some mk))).answer why .tracks r
  | .collect x => ({ s with objs := s.objs.set x none }, some (.ok .none))

def specRun (why : Why → Str) (s : Sp) : List Op → Sp × List Out
  | [] => (s, [])
  | op :: ops => ((specRun why (spec why s op).1 ops).1, (spec why s op).2 :: (specRun why (spec why s op).1 ops).2)

/-- The object an implementation returns in this statement, with its class. -/
def given : Op → Option (Kind × Nat)
  | .load _ (.gives (some t)) => some (.image, t)
  | .convert _ (.gives (some t)) => some (.image, t)
  | .track _ _ _ _ (.gives (some t)) => some (.tracks, t)
  | _ => none

/-- Two objects that exist at the same time have different addresses: an object returned is at the address of no other object that Python holds. -/
def Legal (addr : Nat → Nat) (s : Sp) (op : Op) : Prop :=
  ∀ k t, given op = some (k, t) → addr t ≠ 0 ∧ ∀ t', some (k, t') ∈ s.objs → addr t' = addr t → t' = t

def LegalRun (addr : Nat → Nat) (why : Why → Str) : Sp → List Op → Prop
  | _, [] => True
  | s, op :: ops => Legal addr s op ∧ LegalRun addr why (spec why s op).1 ops

/-- Full property C271: whatever the implementations answer, Python's answers and the calls the implementations get are those of the specification. -/
def C271_statement (usable : Nat → Nat) : Prop := ∀ (addr : Nat → Nat) (why : Why → Str) (ops : List Op), LegalRun addr why ⟨[], []⟩ ops →
  (run usable addr why St.init ops).2 = (specRun why ⟨[], []⟩ ops).2 ∧ (run usable addr why St.init ops).1.seen = (specRun why ⟨[], []⟩ ops).1.seen

/-! ### The invariant -/

/-- An object of class `k` at address `p`. -/
def isAt (addr : Nat → Nat) (k : Kind) (p : Nat) : Option (Kind × Nat) → Bool
  | some (k', t) => decide (k' = k) && decide (addr t = p)
  | none => false

/-- The number of Python objects of class `k` at address `p`. -/
def held (addr : Nat → Nat) (objs : List (Option (Kind × Nat))) (k : Kind) (p : Nat) : Nat := objs.countP (isAt addr k p)

/-- Program state and specification state fit. -/
structure Inv (addr : Nat → Nat) (s : St) (a : Sp) : Prop where
  seen : s.seen = a.seen
  objs : s.objs = a.objs.map fun o => o.map fun e => (e.1, addr e.2)
  nonzero : ∀ k t, some (k, t) ∈ a.objs → addr t ≠ 0
  rep : ∀ k p, p ≠ 0 → ∃ kept, Rep (s.cache k) p (held addr a.objs k p) kept ∧ ∀ t, some (k, t) ∈ a.objs → addr t = p → kept = some ⟨p, t⟩

theorem inv_init (addr : Nat → Nat) : Inv addr St.init ⟨[], []⟩ := by
  refine ⟨rfl, rfl, by simp, ?_⟩
  intro k p _
  refine ⟨none, ⟨?_, ?_, ?_⟩, by simp⟩ <;> cases k <;> simp [St.cache, St.init, CApi.empty, held, OMap.find?]

theorem get_obj {addr : Nat → Nat} {s : St} {a : Sp} (h : Inv addr s a) {k : Kind} {t : Nat} (hm : some (k, t) ∈ a.objs) :
    get (s.cache k) (addr t) = .ok ⟨addr t, t⟩ := by
  have hz := h.nonzero k t hm
  obtain ⟨kept, ⟨h1, _, _⟩, h2⟩ := h.rep k (addr t) hz
  have := h2 t hm rfl
  unfold CApi.get
  rw [if_neg hz, h1, this]

theorem look (addr : Nat → Nat) (l : List (Option (Kind × Nat))) (x : Nat) :
    ((l.map fun o => o.map fun e => (e.1, addr e.2))[x]?).getD none = ((l[x]?).getD none).map fun e => (e.1, addr e.2) := by
  rw [List.getElem?_map]
  cases l[x]? with
  | none => rfl
  | some o => rfl

theorem mem_look {l : List (Option (Kind × Nat))} {x : Nat} {e : Kind × Nat} (h : (l[x]?).getD none = some e) : some e ∈ l := by
  cases hx : l[x]? with
  | none => rw [hx] at h; cases h
  | some o => rw [hx] at h; simp at h; subst h; exact List.mem_of_getElem? hx

/-- What the pointer passed for an argument leads to. -/
theorem param_spec {addr : Nat → Nat} {s : St} {a : Sp} (h : Inv addr s a) (k : Kind) (x : Option Nat) :
    (a.arg k x = .wrong ∧ param s k x = .error .argument) ∨ (a.arg k x = .null ∧ x = none ∧ param s k x = .ok 0 ∧ get (s.cache k) 0 = .error .nullPointer) ∨
    (∃ t, a.arg k x = .obj t ∧ some (k, t) ∈ a.objs ∧ param s k x = .ok (addr t) ∧ get (s.cache k) (addr t) = .ok ⟨addr t, t⟩ ∧ addr t ≠ 0) := by
  cases x with
  | none => exact .inr (.inl ⟨rfl, rfl, rfl, rfl⟩)
  | some x =>
    unfold Sp.arg param
    rw [h.objs]
    simp only [look]
    cases hx : (a.objs[x]?).getD none with
    | none => exact .inl ⟨rfl, rfl⟩
    | some e =>
      obtain ⟨k', t⟩ := e
      have hm := mem_look hx
      by_cases hk : k' = k
      · subst hk
        exact .inr (.inr ⟨t, by simp, hm, by simp, get_obj h hm, h.nonzero _ _ hm⟩)
      · exact .inl ⟨by simp [hk], by simp [hk]⟩

theorem mask_spec {addr : Nat → Nat} {s : St} {a : Sp} (h : Inv addr s a) (x : Option Nat) :
    (a.arg .image x = .wrong ∧ maskParam s x = .error .argument) ∨ (a.arg .image x = .null ∧ maskParam s x = .ok none) ∨
    (∃ t, a.arg .image x = .obj t ∧ maskParam s x = .ok (some (addr t)) ∧ get s.img (addr t) = .ok ⟨addr t, t⟩) := by
  cases x with
  | none => exact .inr (.inl ⟨rfl, rfl⟩)
  | some x =>
    unfold Sp.arg maskParam
    rw [h.objs]
    simp only [look]
    cases hx : (a.objs[x]?).getD none with
    | none => exact .inl ⟨rfl, rfl⟩
    | some e =>
      obtain ⟨k', t⟩ := e
      have hm := mem_look hx
      have hz := h.nonzero _ _ hm
      by_cases hk : k' = .image
      · subst hk
        exact .inr (.inr ⟨t, by simp, by simp [hz], get_obj h hm⟩)
      · exact .inl ⟨by simp [hk], by simp [hk, hz]⟩

theorem cache_put (s : St) (k k' : Kind) (c : Cache) : (s.put k c).cache k' = if k' = k then c else s.cache k' := by
  cases k <;> cases k' <;> rfl

theorem put_frame (s : St) (k : Kind) (c : Cache) : (s.put k c).objs = s.objs ∧ (s.put k c).seen = s.seen := by cases k <;> exact ⟨rfl, rfl⟩

theorem inv_saw {addr : Nat → Nat} {s : St} {a : Sp} (h : Inv addr s a) (x : Seen) : Inv addr { s with seen := s.seen ++ [x] } (a.saw x) := by
  refine ⟨by simp [Sp.saw, h.seen], h.objs, h.nonzero, ?_⟩
  intro k p hp
  obtain ⟨kept, h1, h2⟩ := h.rep k p hp
  refine ⟨kept, ?_, h2⟩
  cases k <;> exact h1

theorem caught_ok {usable : Nat → Nat} (hu : ∀ n, n + 1 ≤ usable n) (w : Str) : Py.CB.caught usable w = some (msg w) := by
  unfold Py.CB.caught
  simp only [hu, if_true]
  rfl

/-- The end of a call: a new object or an exception. -/
theorem giveBack_spec {usable : Nat → Nat} (hu : ∀ n, n + 1 ≤ usable n) {addr : Nat → Nat} {why : Why → Str} {s : St} {a : Sp} (h : Inv addr s a) (k : Kind) (r : Ret)
    (hl : ∀ t, r = .gives (some t) → addr t ≠ 0 ∧ ∀ t', some (k, t') ∈ a.objs → addr t' = addr t → t' = t) :
    (∃ w, giveBack addr why s k r = (s, .error w) ∧ a.answer why k r = (a, fails w)) ∨
    (∃ s' p, giveBack addr why s k r = (s', .ok p) ∧ Inv addr (newObj s' k p).1 (a.answer why k r).1 ∧ (newObj s' k p).2 = (a.answer why k r).2) := by
  cases r with
  | throws w => exact .inl ⟨w, rfl, rfl⟩
  | gives o =>
    cases o with
    | none => exact .inl ⟨_, rfl, rfl⟩
    | some t =>
      right
      obtain ⟨hz, hl⟩ := hl t rfl
      have hst : store (s.cache k) ⟨addr t, t⟩ = (CApi.step (s.cache k) (.store ⟨addr t, t⟩), .ok ()) := by
        by_cases hc : (s.cache k).cache.contains (addr t) = true
        · simp only [CApi.step, store, hz, if_false, hc, if_true]
        · simp only [CApi.step, store, hz, if_false, hc, Bool.false_eq_true]
      refine ⟨s.put k (CApi.step (s.cache k) (.store ⟨addr t, t⟩)), addr t, ?_, ?_, ?_⟩
      · simp only [giveBack, hst]
      · refine ⟨?_, ?_, ?_, ?_⟩
        · exact (put_frame s k _).2.trans h.seen
        · show (s.put k _).objs ++ [some (k, addr t)] = _
          rw [(put_frame s k _).1, h.objs]
          simp [Sp.answer]
        · intro k' t' hm
          simp only [Sp.answer, List.mem_append, List.mem_singleton, Option.some.injEq, Prod.mk.injEq] at hm
          rcases hm with hm | ⟨_, rfl⟩
          · exact h.nonzero k' t' hm
          · exact hz
        · intro k' p hp
          obtain ⟨kept, h1, h2⟩ := h.rep k' p hp
          have hc : (newObj (s.put k (CApi.step (s.cache k) (.store ⟨addr t, t⟩))) k (addr t)).1.cache k' = if k' = k then CApi.step (s.cache k) (.store ⟨addr t, t⟩) else s.cache k' := by
            rw [← cache_put]; cases k' <;> rfl
          rw [hc]
          have hh : held addr (a.answer why k (.gives (some t))).1.objs k' p = held addr a.objs k' p + (if k = k' ∧ addr t = p then 1 else 0) := by
            simp only [held, Sp.answer, List.countP_append, List.countP_cons, List.countP_nil, isAt, Nat.zero_add, Bool.and_eq_true, decide_eq_true_eq]
          rw [hh]
          by_cases hk : k' = k
          · subst hk
            rw [if_pos rfl]
            have hr := rep_step hp h1 (.store ⟨addr t, t⟩)
            by_cases hpt : addr t = p
            · simp only [refs, CApi.kept, hpt, if_true] at hr
              rw [if_pos ⟨rfl, hpt⟩]
              subst hpt
              refine ⟨_, hr, ?_⟩
              intro t' hm he
              simp only [Sp.answer, List.mem_append, List.mem_singleton, Option.some.injEq, Prod.mk.injEq, true_and] at hm
              have et : t' = t := by
                rcases hm with hm | rfl
                · exact hl t' hm he
                · rfl
              subst et
              split
              · rfl
              · rename_i hn
                have : ∃ o ∈ a.objs, isAt addr k' (addr t') o = true := List.countP_pos_iff.1 (Nat.pos_of_ne_zero hn)
                obtain ⟨o, ho, hi⟩ := this
                cases o with
                | none => cases hi
                | some e =>
                  obtain ⟨k2, t2⟩ := e
                  simp only [isAt, Bool.and_eq_true, decide_eq_true_eq] at hi
                  obtain ⟨rfl, e2⟩ := hi
                  have e3 := hl t2 ho e2
                  subst e3
                  exact h2 t2 ho rfl
            · simp only [refs, CApi.kept, hpt, if_false] at hr
              rw [if_neg (fun hh => hpt hh.2)]
              refine ⟨_, hr, ?_⟩
              intro t' hm he
              simp only [Sp.answer, List.mem_append, List.mem_singleton, Option.some.injEq, Prod.mk.injEq, true_and] at hm
              rcases hm with hm | rfl
              · exact h2 t' hm he
              · exact absurd he hpt
          · rw [if_neg hk, if_neg (fun hh => hk hh.1.symm)]
            refine ⟨kept, h1, ?_⟩
            intro t' hm he
            simp only [Sp.answer, List.mem_append, List.mem_singleton, Option.some.injEq, Prod.mk.injEq] at hm
            rcases hm with hm | ⟨e, _⟩
            · exact h2 t' hm he
            · exact absurd e hk
      · show some (Except.ok (Val.obj (s.put k _).objs.length)) = _
        rw [(put_frame s k _).1, h.objs]
        simp [Sp.answer]

theorem set_mem {l : List (Option (Kind × Nat))} {x : Nat} {e : Kind × Nat} (h : some e ∈ l.set x none) : some e ∈ l := by
  rcases List.mem_or_eq_of_mem_set h with h | h
  · exact h
  · cases h

theorem collect_spec {addr : Nat → Nat} {s : St} {a : Sp} (h : Inv addr s a) (x : Nat) : Inv addr (collect s x).1 { a with objs := a.objs.set x none } := by
  unfold collect
  rw [h.objs]
  simp only [look]
  cases hx : (a.objs[x]?).getD none with
  | none =>
    have e : a.objs.set x none = a.objs := by
      cases hx' : a.objs[x]? with
      | none => exact List.set_eq_of_length_le (by simpa using hx')
      | some o =>
        rw [hx'] at hx
        simp at hx
        subst hx
        obtain ⟨hlt, he⟩ := List.getElem?_eq_some_iff.1 hx'
        rw [← he]; exact List.set_getElem_self hlt
    rw [e]
    exact h
  | some e =>
    obtain ⟨k, t⟩ := e
    have hm := mem_look hx
    have hz := h.nonzero k t hm
    have hx' : a.objs[x]? = some (some (k, t)) := by
      cases hx' : a.objs[x]? with
      | none => rw [hx'] at hx; cases hx
      | some o => rw [hx'] at hx; simp at hx; rw [hx]
    obtain ⟨hlt, he⟩ := List.getElem?_eq_some_iff.1 hx'
    refine ⟨?_, ?_, ?_, ?_⟩
    · exact (put_frame s k _).2.trans h.seen
    · simp [List.map_set]
    · intro k' t' hm'; exact h.nonzero k' t' (set_mem hm')
    · intro k' p hp
      obtain ⟨kept, h1, h2⟩ := h.rep k' p hp
      have hc : ({ s.put k (erase (s.cache k) (addr t)).1 with objs := (a.objs.map fun o => o.map fun e => (e.1, addr e.2)).set x none } : St).cache k' =
          if k' = k then CApi.step (s.cache k) (.erase (addr t)) else s.cache k' := by
        have := cache_put s k k' (erase (s.cache k) (addr t)).1
        cases k' <;> exact this
      have hh : held addr (a.objs.set x none) k' p = held addr a.objs k' p - (if k = k' ∧ addr t = p then 1 else 0) := by
        unfold held
        rw [List.countP_set hlt, he]
        simp [isAt]
      simp only [Option.map_some]
      rw [hc, hh]
      by_cases hk : k' = k
      · subst hk
        rw [if_pos rfl]
        have hr := rep_step hp h1 (.erase (addr t))
        by_cases hpt : addr t = p
        · subst hpt
          simp only [refs, CApi.kept, if_true] at hr
          rw [if_pos ⟨rfl, rfl⟩]
          refine ⟨_, hr, ?_⟩
          intro t' hm' he'
          have h3 := h2 t' (set_mem hm') he'
          have hcount : 2 ≤ held addr a.objs k' (addr t) := by
            have hpos : 0 < held addr (a.objs.set x none) k' (addr t) := by
              unfold held
              rw [List.countP_pos_iff]
              exact ⟨_, hm', by simp [isAt, he']⟩
            rw [hh, if_pos ⟨rfl, rfl⟩] at hpos
            omega
          rw [if_neg (by omega)]
          exact h3
        · simp only [refs, CApi.kept, hpt, if_false] at hr
          rw [if_neg (fun hh => hpt hh.2)]
          exact ⟨_, hr, fun t' hm' he' => h2 t' (set_mem hm') he'⟩
      · rw [if_neg hk, if_neg (fun hh => hk hh.1.symm)]
        exact ⟨kept, h1, fun t' hm' he' => h2 t' (set_mem hm') he'⟩

/-- One statement. -/
theorem step_spec {usable : Nat → Nat} (hu : ∀ n, n + 1 ≤ usable n) {addr : Nat → Nat} {why : Why → Str} {s : St} {a : Sp} (h : Inv addr s a) (op : Op) (hl : Legal addr a op) :
    Inv addr (step usable addr why s op).1 (spec why a op).1 ∧ (step usable addr why s op).2 = (spec why a op).2 := by
  have hraise : ∀ w, raised usable w = fails w := by intro w; unfold raised; rw [caught_ok hu]; rfl
  have hraise2 : ∀ w, raisedAfterObject usable why w = fails w := by intro w; unfold raisedAfterObject; rw [caught_ok hu]; exact hraise w
  cases op with
  | load f r =>
    have hi := inv_saw h (.load (cstr f))
    have hg := giveBack_spec hu (why := why) hi .image r (by
      intro t e; subst e; exact hl .image t rfl)
    simp only [step, load, cLoad, spec]
    rcases hg with ⟨w, g1, g2⟩ | ⟨s', p, g1, g2, g3⟩
    · rw [g1, g2]; exact ⟨hi, hraise w⟩
    · rw [g1]; exact ⟨g2, g3⟩
  | save i f r =>
    simp only [step, save, spec]
    rcases param_spec h .image i with ⟨p1, p2⟩ | ⟨p1, _, p2, p3⟩ | ⟨t, p1, _, p2, p3, _⟩
    · rw [p1, p2]; exact ⟨h, rfl⟩
    · have p3' : get s.img 0 = .error .nullPointer := p3
      rw [p1, p2]
      simp only [cSave, p3']
      exact ⟨h, hraise _⟩
    · have p3' : get s.img (addr t) = .ok ⟨addr t, t⟩ := p3
      rw [p1, p2]
      simp only [cSave, p3']
      cases r with
      | throws w => exact ⟨inv_saw h _, hraise w⟩
      | gives o => exact ⟨inv_saw h _, rfl⟩
  | convert i r =>
    simp only [step, convert, spec]
    rcases param_spec h .image i with ⟨p1, p2⟩ | ⟨p1, _, p2, p3⟩ | ⟨t, p1, _, p2, p3, _⟩
    · rw [p1, p2]; exact ⟨h, rfl⟩
    · have p3' : get s.img 0 = .error .nullPointer := p3
      rw [p1, p2]
      simp only [cConvert, p3']
      exact ⟨h, hraise2 _⟩
    · have p3' : get s.img (addr t) = .ok ⟨addr t, t⟩ := p3
      rw [p1, p2]
      simp only [cConvert, p3']
      have hi := inv_saw h (.convert t)
      have hg := giveBack_spec hu (why := why) hi .image r (by
        intro t e; subst e; exact hl .image t rfl)
      rcases hg with ⟨w, g1, g2⟩ | ⟨s', p, g1, g2, g3⟩
      · rw [g1, g2]; exact ⟨hi, hraise2 w⟩
      · rw [g1]; exact ⟨g2, g3⟩
  | track p f i m r =>
    simp only [step, track, spec]
    rcases mask_spec h m with ⟨m1, m2⟩ | ⟨m1, m2⟩ | ⟨mt, m1, m2, m3⟩
    · rw [m1, m2]
      refine ⟨?_, ?_⟩ <;> simp only <;> first | exact h | rfl
    all_goals
      rcases param_spec h .tracks p with ⟨p1, p2⟩ | ⟨p1, _, p2, p3⟩ | ⟨t, p1, _, p2, p3, _⟩ <;>
      rcases param_spec h .image i with ⟨q1, q2⟩ | ⟨q1, _, q2, q3⟩ | ⟨u, q1, _, q2, q3, _⟩
      all_goals rw [m1, m2, p1, p2, q1, q2]
      all_goals first | exact ⟨h, rfl⟩ | skip
    · have p3' : get s.trk 0 = .error .nullPointer := p3
      simp only [cTrack, p3']; exact ⟨h, hraise2 _⟩
    · have p3' : get s.trk 0 = .error .nullPointer := p3
      simp only [cTrack, p3']; exact ⟨h, hraise2 _⟩
    · have p3' : get s.trk (addr t) = .ok ⟨addr t, t⟩ := p3
      have q3' : get s.img 0 = .error .nullPointer := q3
      simp only [cTrack, p3', q3']; exact ⟨h, hraise2 _⟩
    · have p3' : get s.trk (addr t) = .ok ⟨addr t, t⟩ := p3
      have q3' : get s.img (addr u) = .ok ⟨addr u, u⟩ := q3
      simp only [cTrack, p3', q3']
      have hi := inv_saw h (.track t (f % (2 : Int) ^ 32).toNat u none)
      have hg := giveBack_spec hu (why := why) hi .tracks r (by
        intro t e; subst e; exact hl .tracks t rfl)
      rcases hg with ⟨w, g1, g2⟩ | ⟨s', p, g1, g2, g3⟩
      · rw [g1, g2]; exact ⟨hi, hraise2 w⟩
      · rw [g1]; exact ⟨g2, g3⟩
    · have p3' : get s.trk 0 = .error .nullPointer := p3
      simp only [cTrack, p3']; exact ⟨h, hraise2 _⟩
    · have p3' : get s.trk 0 = .error .nullPointer := p3
      simp only [cTrack, p3']; exact ⟨h, hraise2 _⟩
    · have p3' : get s.trk (addr t) = .ok ⟨addr t, t⟩ := p3
      have q3' : get s.img 0 = .error .nullPointer := q3
      simp only [cTrack, p3', q3']; exact ⟨h, hraise2 _⟩
    · have p3' : get s.trk (addr t) = .ok ⟨addr t, t⟩ := p3
      have q3' : get s.img (addr u) = .ok ⟨addr u, u⟩ := q3
      simp only [cTrack, p3', q3', m3]
      have hi := inv_saw h (.track t (f % (2 : Int) ^ 32).toNat u (some mt))
      have hg := giveBack_spec hu (why := why) hi .tracks r (by
        intro t e; subst e; exact hl .tracks t rfl)
      rcases hg with ⟨w, g1, g2⟩ | ⟨s', p, g1, g2, g3⟩
      · rw [g1, g2]; exact ⟨hi, hraise2 w⟩
      · rw [g1]; exact ⟨g2, g3⟩
  | collect x =>
    refine ⟨collect_spec h x, ?_⟩
    show (collect s x).2 = _
    unfold collect
    split <;> rfl

/-! ### C271 -/

/-- What holds: with an allocator whose blocks always have a byte to spare, Python's answers, the exceptions and their messages, and the calls the
    implementations get are those of the specification: each Python object stands for the C++ object that was returned to it until it is collected,
    whatever becomes of other Python objects for the same C++ object.
    Missing: allocators without a spare byte (an exception's message is written one byte past its block). -/
theorem C271_calls_partial (usable : Nat → Nat) (hu : ∀ n, n + 1 ≤ usable n) (addr : Nat → Nat) (why : Why → Str) (ops : List Op) (hl : LegalRun addr why ⟨[], []⟩ ops) :
    (run usable addr why St.init ops).2 = (specRun why ⟨[], []⟩ ops).2 ∧ (run usable addr why St.init ops).1.seen = (specRun why ⟨[], []⟩ ops).1.seen := by
  have main : ∀ (ops : List Op) (s : St) (a : Sp), Inv addr s a → LegalRun addr why a ops →
      (run usable addr why s ops).2 = (specRun why a ops).2 ∧ (run usable addr why s ops).1.seen = (specRun why a ops).1.seen := by
    intro ops
    induction ops with
    | nil => intro s a h _; exact ⟨rfl, h.seen⟩
    | cons op ops ih =>
      intro s a h hl
      obtain ⟨h1, h2⟩ := step_spec hu (why := why) h op hl.1
      obtain ⟨i1, i2⟩ := ih _ _ h1 hl.2
      refine ⟨?_, i2⟩
      simp only [run, specRun, h2, i1]
  exact main ops _ _ (inv_init addr) hl

/-- After any history, the handle caches hold exactly the objects that Python objects stand for, each as often as it is held: nothing leaks. -/
theorem C271_no_leak (usable : Nat → Nat) (hu : ∀ n, n + 1 ≤ usable n) (addr : Nat → Nat) (why : Why → Str) (ops : List Op) (hl : LegalRun addr why ⟨[], []⟩ ops) (k : Kind) (p : Nat) (hp : p ≠ 0) :
    ((∃ t, some (k, t) ∈ (specRun why ⟨[], []⟩ ops).1.objs ∧ addr t = p) ↔ ∃ sp, get ((run usable addr why St.init ops).1.cache k) p = .ok sp) := by
  have main : ∀ (ops : List Op) (s : St) (a : Sp), Inv addr s a → LegalRun addr why a ops → Inv addr (run usable addr why s ops).1 (specRun why a ops).1 := by
    intro ops
    induction ops with
    | nil => intro s a h _; exact h
    | cons op ops ih => intro s a h hl; exact ih _ _ (step_spec hu (why := why) h op hl.1).1 hl.2
  have h := main ops _ _ (inv_init addr) hl
  constructor
  · rintro ⟨t, hm, rfl⟩; exact ⟨_, get_obj h hm⟩
  · rintro ⟨sp, hg⟩
    obtain ⟨kept, ⟨h1, _, h3⟩, _⟩ := h.rep k p hp
    unfold CApi.get at hg
    rw [if_neg hp, h1] at hg
    cases hk : kept with
    | none => rw [hk] at hg; cases hg
    | some x =>
      have hn := h3.1 (by rw [hk]; rfl)
      obtain ⟨o, ho, hi⟩ := List.countP_pos_iff.1 (Nat.pos_of_ne_zero hn)
      cases o with
      | none => cases hi
      | some e =>
        obtain ⟨k2, t2⟩ := e
        simp only [isAt, Bool.and_eq_true, decide_eq_true_eq] at hi
        obtain ⟨rfl, e2⟩ := hi
        exact ⟨t2, ho, e2⟩

/-- C271 is false of the code: with blocks of exactly the requested size every exception is undefined behaviour. -/
theorem C271_refuted : ¬ C271_statement (fun n => n) := by
  intro h
  have := (h (fun t => t + 1) (fun _ => []) [.load [] (.throws [])] ⟨(by intro k t h; simp [given] at h), trivial⟩).1
  revert this
  decide +kernel

/-- A run with all statements: convert gives back its argument; both Python objects stand for it; the first is collected. -/
def demo : List Op := [.load (c!"a.png") (.gives (some 5)), .convert (some 0) (.gives (some 5)), .collect 0, .save (some 1) (c!"b.png") (.gives none),
  .convert none (.gives (some 6)), .track none 0 (some 1) none (.gives (some 7)), .convert (some 1) (.gives none), .collect 1, .save (some 1) (c!"c") (.gives none)]

def demoWhy : Why → Str
  | .get .nullPointer => c!"get null"
  | .get .noEntry => c!"no entry"
  | .storeNull => c!"store null"
  | .eraseNull => c!"erase null"

example : LegalRun (fun t => t + 1) demoWhy ⟨[], []⟩ demo := by
  refine ⟨?_, ?_, ?_, ?_, ?_, ?_, ?_, ?_, ?_, trivial⟩ <;> intro k t h <;> simp only [given] at h <;>
    first | (cases h; done) | (refine ⟨Nat.succ_ne_zero _, fun t' _ e => ?_⟩; dsimp only at e; omega)

example : (run (fun n => n + 1) (fun t => t + 1) demoWhy St.init demo).2 =
    [some (.ok (.obj 0)), some (.ok (.obj 1)), some (.ok .none), some (.ok .none), fails (c!"get null"), fails (c!"get null"), fails (c!"store null"), some (.ok .none), some (.error .argument)] ∧
  (run (fun n => n + 1) (fun t => t + 1) demoWhy St.init demo).1.seen = [.load (c!"a.png"), .convert 5, .save 5 (c!"b.png"), .convert 5] := by decide +kernel

end Vital.Py.Calls
