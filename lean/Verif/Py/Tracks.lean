import Verif.Py.AlgoCalls
import Verif.IO.TrackFile
import Verif.IO.Krtd
/-
  The Python classes Track, TrackSet and Camera (vital/bindings/python/vital/track.py, track_set.py, camera.py) and the C functions under them
  (vital/bindings/c/track.cxx, track_set.cxx, camera.cxx); properties C277 and C278.

  C++ objects are numbered in the order they are made; `addr` is the address of each.  No function reachable from Python changes a track, a track set
  or a camera, and a set keeps its tracks alive (C248), so a set is its list of tracks.  Texts of C++ exceptions are parameters.
-/
namespace Vital.Py.Trk
open Vital Vital.CApi Vital.IO Vital.Sys Vital.Stream

variable {ν : Type}

inductive Kind where
  | track | set | camera
  deriving DecidableEq

inductive Obj (ν : Type) where
  | track (t : FTrack ν Unit)
  | set (l : List (FTrack ν Unit))
  | camera (c : IO.Camera ν)

def Obj.kind : Obj ν → Kind
  | .track _ => .track
  | .set _ => .set
  | .camera _ => .camera

/-- Number formats, uninitialised locals, the disk, the allocator, addresses and exception texts. -/
structure Env (ν : Type) where
  f : NumFmt ν
  z : ν
  junkI : Nat → Int
  junk : Nat → ν
  junkC : ν
  disk : Parser.Disk
  usable : Nat → Nat
  addr : Nat → Nat
  what : IO.Exc → Str
  why : Calls.Why → Str

/-- One statement; Python objects are numbered in the order of their creation. -/
inductive Op where
  | newTrack
  | newSet (l : Option (List Nat))
  | readSet (file : Str)
  | readCamera (file : Str)
  | len (x : Nat)
  | isEmpty (x : Nat)
  | truth (x : Nat)
  | writeSet (x : Nat) (file : Str)
  | writeCamera (x : Nat) (file : Str)
  | collect (x : Nat)

inductive Exn where
  /-- TypeError, AttributeError, NameError, ctypes.ArgumentError -/
  | argument
  | runtime
  /-- VitalBaseException -/
  | vital (msg : Str)
  deriving DecidableEq

inductive Val where
  | none
  | obj (x : Nat)
  | int (n : Nat)
  | bool (b : Bool)
  deriving DecidableEq

/-- `none` = undefined behaviour -/
abbrev Out := Option (Except Exn Val)

structure St (ν : Type) where
  cache : Kind → Cache
  cells : List (Obj ν)
  /-- class and pointer of each Python object, `none` once it is collected -/
  objs : List (Option (Kind × Nat))
  world : World

def St.init (w : World) : St ν := ⟨fun _ => CApi.empty, [], [], w⟩

def St.put (s : St ν) (k : Kind) (c : Cache) : St ν := { s with cache := fun k' => if k' = k then c else s.cache k' }

/-- `with VitalErrorHandle()` around a call that failed with text `w`. -/
-- models: vital/bindings/python/vital/util/error_handle.py:52-83
def raised (e : Env ν) (w : Str) : Out :=
  match Py.CB.caught e.usable w with
  | none => none
  | some m => some (.error (.vital m))

/-- An exception after which an object with a null pointer is collected: its `__del__` fails, which Python reports on stderr only. -/
-- models: vital/bindings/python/vital/track_set.py:61-62, 84-95, camera.py:56-57 with VitalObject.py:153-155; `__del__` of a Camera tests the pointer first
def raisedAfterObject (e : Env ν) (k : Kind) (o : Out) : Out :=
  if k = .camera then o
  else match Py.CB.caught e.usable (e.why .eraseNull) with
    | none => none
    | some _ => o

/-- The C++ object behind a handle. -/
-- models: vital/bindings/c/helpers/c_utils.h:200-228 (get)
def look (e : Env ν) (s : St ν) (k : Kind) (p : Nat) : Except Str (Option (Obj ν)) :=
  match get (s.cache k) p with
  | .error x => .error (e.why (.get x))
  | .ok sp => .ok s.cells[sp.tag]?

/-- A new C++ object is stored in its cache; its pointer is returned. -/
-- models: vital/bindings/c/track.cxx:51-62, track_set.cxx:68-72, 99-102, camera.cxx:70-72
def make (e : Env ν) (s : St ν) (v : Obj ν) : St ν × Except Str Nat :=
  match store (s.cache v.kind) ⟨e.addr s.cells.length, s.cells.length⟩ with
  | (_, .error _) => (s, .error (e.why .storeNull))
  | (c, .ok _) => ({ s.put v.kind c with cells := s.cells ++ [v] }, .ok (e.addr s.cells.length))

def newObj (s : St ν) (k : Kind) (p : Nat) : St ν × Out :=
  ({ s with objs := s.objs ++ [some (k, p)] }, some (.ok (.obj s.objs.length)))

-- models: vital/bindings/python/vital/track.py:50-59 (Track.__init__) over vital/bindings/c/track.cxx:50-61 (vital_track_new)
def newTrack (e : Env ν) (s : St ν) : St ν × Out :=
  match make e s (.track Track.mkEmpty) with
  | (s', .error _) => (s', raisedAfterObject e .track (some (.error .runtime)))
  | (s', .ok p) => newObj s' .track p

/-- The pointers of a list of Python objects; all must be tracks. -/
-- models: vital/bindings/python/vital/track_set.py:87-91
def pointers (s : St ν) : List Nat → Option (List Nat)
  | [] => some []
  | x :: xs =>
    match (s.objs[x]?).getD none with
    | some (.track, p) => (pointers s xs).map (p :: ·)
    | _ => none

/-- The loop of vital_trackset_new: `none` is undefined behaviour (not a track). -/
-- models: vital/bindings/c/track_set.cxx:61-65
def tracksOf (e : Env ν) (s : St ν) : List Nat → Option (Except Str (List (FTrack ν Unit)))
  | [] => some (.ok [])
  | p :: ps =>
    match look e s .track p with
    | .error w => some (.error w)
    | .ok (some (.track t)) => (tracksOf e s ps).map fun r => r.map (t :: ·)
    | .ok _ => none

-- models: vital/bindings/python/vital/track_set.py:67-95 (TrackSet.__init__) over vital/bindings/c/track_set.cxx:54-74 (vital_trackset_new, no error handle)
def newSet (e : Env ν) (s : St ν) (l : Option (List Nat)) : St ν × Out :=
  match pointers s (l.getD []) with
  | none => (s, raisedAfterObject e .set (some (.error .argument)))
  | some ps =>
    match tracksOf e s ps with
    | none => (s, none)
    | some (.error _) => (s, raisedAfterObject e .set (some (.error .runtime)))
    | some (.ok ts) =>
      match make e s (.set ts) with
      | (s', .error _) => (s', raisedAfterObject e .set (some (.error .runtime)))
      | (s', .ok p) => newObj s' .set p

-- models: vital/bindings/python/vital/track_set.py:47-62 (from_file) over vital/bindings/c/track_set.cxx:92-106 (vital_trackset_new_from_file)
def readSet (e : Env ν) (s : St ν) (file : Str) : St ν × Out :=
  match readTrackFile e.f e.junkI e.junk s.world (cstr file) with
  | .error x => (s, raisedAfterObject e .set (raised e (e.what x)))
  | .ok ts =>
    match make e s (.set ts) with
    | (s', .error w) => (s', raisedAfterObject e .set (raised e w))
    | (s', .ok p) => newObj s' .set p

-- models: vital/bindings/python/vital/camera.py:46-57 (from_krtd_file) over vital/bindings/c/camera.cxx:64-75 (vital_camera_read_krtd_file)
def readCamera (e : Env ν) [DecidableEq ν] (s : St ν) (file : Str) : St ν × Out :=
  match readKrtdFile e.f e.z e.junkC s.world (cstr file) with
  | .error x => (s, raisedAfterObject e .camera (raised e (e.what x)))
  | .ok c =>
    match make e s (.camera c) with
    | (s', .error w) => (s', raisedAfterObject e .camera (raised e w))
    | (s', .ok p) => newObj s' .camera p

-- models: vital/bindings/python/vital/track.py:67-76, track_set.py:103-108 (__len__) over vital/bindings/c/track.cxx:76-85, track_set.cxx:122-131 (size);
-- a Camera has no length
def len (e : Env ν) (s : St ν) (x : Nat) : Out :=
  match (s.objs[x]?).getD none with
  | some (.track, p) =>
    match look e s .track p with
    | .error w => raised e w
    | .ok (some (.track t)) => some (.ok (.int t.history.length))
    | .ok _ => none
  | some (.set, p) =>
    match look e s .set p with
    | .error w => raised e w
    | .ok (some (.set l)) => some (.ok (.int l.length))
    | .ok _ => none
  | _ => some (.error .argument)

-- models: vital/bindings/python/vital/track.py:86-96 (is_empty) over vital/bindings/c/track.cxx:88-98 (vital_track_empty)
def isEmpty (e : Env ν) (s : St ν) (x : Nat) : Out :=
  match (s.objs[x]?).getD none with
  | some (.track, p) =>
    match look e s .track p with
    | .error w => raised e w
    | .ok (some (.track t)) => some (.ok (.bool t.history.isEmpty))
    | .ok _ => none
  | _ => some (.error .argument)

-- models: vital/bindings/python/vital/util/VitalObject.py:157-163 (__nonzero__, __bool__): the pointer, not the length
def truth (s : St ν) (x : Nat) : Out :=
  match (s.objs[x]?).getD none with
  | some (_, p) => some (.ok (.bool (p != 0)))
  | none => some (.error .argument)

-- models: vital/bindings/python/vital/track_set.py:113-126 (write_tracks_file) over vital/bindings/c/track_set.cxx:134-149
def writeSet (e : Env ν) (s : St ν) (x : Nat) (file : Str) : St ν × Out :=
  match (s.objs[x]?).getD none with
  | some (.set, p) =>
    match look e s .set p with
    | .error w => (s, raised e w)
    | .ok (some (.set l)) =>
      match writeTrackFile e.f e.disk s.world (some l) (cstr file) with
      | (w, .error x) => ({ s with world := w }, raised e (e.what x))
      | (w, .ok _) => ({ s with world := w }, some (.ok .none))
    | .ok _ => (s, none)
  | _ => (s, some (.error .argument))

-- models: vital/bindings/python/vital/camera.py:68-82 (write_krtd_file) over vital/bindings/c/camera.cxx:78-90 (vital_camera_write_krtd_file)
def writeCamera (e : Env ν) (s : St ν) (x : Nat) (file : Str) : St ν × Out :=
  match (s.objs[x]?).getD none with
  | some (.camera, p) =>
    match look e s .camera p with
    | .error w => (s, raised e w)
    | .ok (some (.camera c)) =>
      match writeKrtdFile e.f e.z e.disk s.world c (cstr file) with
      | (w, .error x) => ({ s with world := w }, raised e (e.what x))
      | (w, .ok _) => ({ s with world := w }, some (.ok .none))
    | .ok _ => (s, none)
  | _ => (s, some (.error .argument))

-- models: VitalObject.py:153-155 (__del__), track.py:61-65, track_set.py:97-101, camera.py:59-66 (_destroy) with c_utils.h:231-250 (erase)
def collect (s : St ν) (x : Nat) : St ν × Out :=
  match (s.objs[x]?).getD none with
  | none => (s, some (.ok .none))
  | some (k, p) => ({ s.put k (erase (s.cache k) p).1 with objs := s.objs.set x none }, some (.ok .none))

def step (e : Env ν) [DecidableEq ν] (s : St ν) : Op → St ν × Out
  | .newTrack => newTrack e s
  | .newSet l => newSet e s l
  | .readSet f => readSet e s f
  | .readCamera f => readCamera e s f
  | .len x => (s, len e s x)
  | .isEmpty x => (s, isEmpty e s x)
  | .truth x => (s, truth s x)
  | .writeSet x f => writeSet e s x f
  | .writeCamera x f => writeCamera e s x f
  | .collect x => collect s x

def run (e : Env ν) [DecidableEq ν] (s : St ν) : List Op → St ν × List Out
  | [] => (s, [])
  | op :: ops => ((run e (step e s op).1 ops).1, (step e s op).2 :: (run e (step e s op).1 ops).2)

/-! ### Specification: Python objects are values -/

/-- The value of each Python object not yet collected (with the number of the C++ object), how many C++ objects were made, and the files. -/
structure Sp (ν : Type) where
  objs : List (Option (Nat × Obj ν))
  next : Nat
  world : World

def Sp.val (a : Sp ν) (x : Nat) : Option (Obj ν) := ((a.objs[x]?).getD none).map (·.2)

/-- The message of an exception. -/
def fails (w : Str) : Out := some (.error (.vital (cstr (c!"Caught exception in C interface: " ++ w))))

def Sp.add (a : Sp ν) (v : Obj ν) : Sp ν × Out :=
  ({ a with objs := a.objs ++ [some (a.next, v)], next := a.next + 1 }, some (.ok (.obj a.objs.length)))

/-- The tracks of a list of Python objects, `none` when one of them is not a track. -/
def Sp.tracks (a : Sp ν) : List Nat → Option (List (FTrack ν Unit))
  | [] => some []
  | x :: xs => match a.val x, a.tracks xs with
    | some (.track t), some l => some (t :: l)
    | _, _ => none

def Sp.wrote (a : Sp ν) (what : IO.Exc → Str) (r : World × Except IO.Exc Unit) : Sp ν × Out :=
  ({ a with world := r.1 }, match r.2 with | .error x => fails (what x) | .ok _ => some (.ok .none))

def spec (e : Env ν) [DecidableEq ν] (a : Sp ν) : Op → Sp ν × Out
  | .newTrack => a.add (.track ⟨[], 0⟩)
  | .newSet none => a.add (.set [])
  | .newSet (some l) => match a.tracks l with
    | some ts => a.add (.set ts)
    | none => (a, some (.error .argument))
  | .readSet f => match readTrackFile e.f e.junkI e.junk a.world (cstr f) with
    | .ok ts => a.add (.set ts)
    | .error x => (a, fails (e.what x))
  | .readCamera f => match readKrtdFile e.f e.z e.junkC a.world (cstr f) with
    | .ok c => a.add (.camera c)
    | .error x => (a, fails (e.what x))
  | .len x => (a, match a.val x with
    | some (.track t) => some (.ok (.int t.history.length))
    | some (.set l) => some (.ok (.int l.length))
    | _ => some (.error .argument))
  | .isEmpty x => (a, match a.val x with
    | some (.track t) => some (.ok (.bool (decide (t.history.length = 0))))
    | _ => some (.error .argument))
  | .truth x => (a, match a.val x with
    | some _ => some (.ok (.bool true))
    | none => some (.error .argument))
  | .writeSet x f => match a.val x with
    | some (.set l) => a.wrote e.what (writeTrackFile e.f e.disk a.world (some l) (cstr f))
    | _ => (a, some (.error .argument))
  | .writeCamera x f => match a.val x with
    | some (.camera c) => a.wrote e.what (writeKrtdFile e.f e.z e.disk a.world c (cstr f))
    | _ => (a, some (.error .argument))
  | .collect x => ({ a with objs := a.objs.set x none }, some (.ok .none))

def specRun (e : Env ν) [DecidableEq ν] (a : Sp ν) : List Op → Sp ν × List Out
  | [] => (a, [])
  | op :: ops => ((specRun e (spec e a op).1 ops).1, (spec e a op).2 :: (specRun e (spec e a op).1 ops).2)

/-- The address of an object made is none of an object that Python holds. -/
def LegalRun (e : Env ν) [DecidableEq ν] : Sp ν → List Op → Prop
  | _, [] => True
  | a, op :: ops => ((spec e a op).1.next ≠ a.next → e.addr a.next ≠ 0 ∧ ∀ t v, some (t, v) ∈ a.objs → e.addr t ≠ e.addr a.next) ∧ LegalRun e (spec e a op).1 ops

/-- Full property C277. -/
def C277_statement [DecidableEq ν] (usable : Nat → Nat) : Prop := ∀ (e : Env ν) (w : World) (ops : List Op), e.usable = usable → LegalRun e ⟨[], 0, w⟩ ops →
  (run e (St.init w) ops).2 = (specRun e ⟨[], 0, w⟩ ops).2 ∧ (run e (St.init w) ops).1.world = (specRun e ⟨[], 0, w⟩ ops).1.world

/-! ### The invariant -/

def isAt (addr : Nat → Nat) (k : Kind) (p : Nat) : Option (Nat × Obj ν) → Bool
  | some (t, v) => decide (v.kind = k) && decide (addr t = p)
  | none => false

def held (addr : Nat → Nat) (objs : List (Option (Nat × Obj ν))) (k : Kind) (p : Nat) : Nat := objs.countP (isAt addr k p)

structure Inv (addr : Nat → Nat) (s : St ν) (a : Sp ν) : Prop where
  world : s.world = a.world
  next : s.cells.length = a.next
  objs : s.objs = a.objs.map fun o => o.map fun x => (x.2.kind, addr x.1)
  cells : ∀ t v, some (t, v) ∈ a.objs → s.cells[t]? = some v
  nonzero : ∀ t v, some (t, v) ∈ a.objs → addr t ≠ 0
  rep : ∀ k p, p ≠ 0 → ∃ kept, Rep (s.cache k) p (held addr a.objs k p) kept ∧ ∀ t v, some (t, v) ∈ a.objs → v.kind = k → addr t = p → kept = some ⟨p, t⟩

theorem inv_init (addr : Nat → Nat) (w : World) : Inv addr (St.init w : St ν) ⟨[], 0, w⟩ := by
  refine ⟨rfl, rfl, rfl, by simp, by simp, ?_⟩
  intro k p _
  refine ⟨none, ⟨?_, ?_, ?_⟩, by simp⟩ <;> simp [St.init, CApi.empty, held, OMap.find?]

theorem obj_at {addr : Nat → Nat} {s : St ν} {a : Sp ν} (h : Inv addr s a) (x : Nat) :
    (s.objs[x]?).getD none = ((a.objs[x]?).getD none).map fun y => (y.2.kind, addr y.1) := by
  rw [h.objs, List.getElem?_map]
  cases a.objs[x]? with
  | none => rfl
  | some o => rfl

theorem mem_at {l : List (Option (Nat × Obj ν))} {x : Nat} {y : Nat × Obj ν} (h : (l[x]?).getD none = some y) : some y ∈ l := by
  cases hx : l[x]? with
  | none => rw [hx] at h; cases h
  | some o => rw [hx] at h; simp at h; subst h; exact List.mem_of_getElem? hx

theorem look_obj {e : Env ν} {s : St ν} {a : Sp ν} (h : Inv e.addr s a) {t : Nat} {v : Obj ν} (hm : some (t, v) ∈ a.objs) :
    look e s v.kind (e.addr t) = .ok (some v) := by
  have hz := h.nonzero t v hm
  obtain ⟨kept, ⟨h1, _, _⟩, h2⟩ := h.rep v.kind (e.addr t) hz
  have := h2 t v hm rfl rfl
  have hg : get (s.cache v.kind) (e.addr t) = .ok ⟨e.addr t, t⟩ := by
    unfold CApi.get
    rw [if_neg hz, h1, this]
  unfold look
  rw [hg]
  simp only [h.cells t v hm]

theorem caught_ok {e : Env ν} (hu : ∀ n, n + 1 ≤ e.usable n) (w : Str) : Py.CB.caught e.usable w = some (cstr (c!"Caught exception in C interface: " ++ w)) := by
  unfold Py.CB.caught
  simp only [hu, if_true]
  rfl

theorem raised_ok {e : Env ν} (hu : ∀ n, n + 1 ≤ e.usable n) (w : Str) : raised e w = fails w := by
  unfold raised
  rw [caught_ok hu]
  rfl

theorem after_ok {e : Env ν} (hu : ∀ n, n + 1 ≤ e.usable n) (k : Kind) (o : Out) : raisedAfterObject e k o = o := by
  unfold raisedAfterObject
  rw [caught_ok hu]
  split <;> rfl

/-- Making an object always succeeds. -/
theorem make_spec {e : Env ν} {s : St ν} {a : Sp ν} (h : Inv e.addr s a) (v : Obj ν) (hz : e.addr a.next ≠ 0)
    (hl : ∀ t v, some (t, v) ∈ a.objs → e.addr t ≠ e.addr a.next) :
    ∃ s' p, make e s v = (s', .ok p) ∧ Inv e.addr (newObj s' v.kind p).1 (a.add v).1 ∧ (newObj s' v.kind p).2 = (a.add v).2 := by
  have hst : store (s.cache v.kind) ⟨e.addr a.next, a.next⟩ = (CApi.step (s.cache v.kind) (.store ⟨e.addr a.next, a.next⟩), .ok ()) := by
    by_cases hc : (s.cache v.kind).cache.contains (e.addr a.next) = true
    · simp only [CApi.step, store, hz, if_false, hc, if_true]
    · simp only [CApi.step, store, hz, if_false, hc, Bool.false_eq_true]
  have hm : make e s v = ({ s.put v.kind (CApi.step (s.cache v.kind) (.store ⟨e.addr a.next, a.next⟩)) with cells := s.cells ++ [v] }, .ok (e.addr a.next)) := by
    unfold make
    rw [h.next, hst]
  refine ⟨_, _, hm, ?_, ?_⟩
  · refine ⟨h.world, ?_, ?_, ?_, ?_, ?_⟩
    · simp [newObj, Sp.add, h.next]
    · simp [newObj, Sp.add, St.put, h.objs]
    · intro t v' hmem
      simp only [Sp.add, List.mem_append, List.mem_singleton, Option.some.injEq, Prod.mk.injEq] at hmem
      show (s.cells ++ [v])[t]? = some v'
      rcases hmem with hmem | ⟨rfl, rfl⟩
      · have := h.cells t v' hmem
        rw [List.getElem?_append_left (by exact (List.getElem?_eq_some_iff.1 this).1)]
        exact this
      · rw [← h.next]; simp
    · intro t v' hmem
      simp only [Sp.add, List.mem_append, List.mem_singleton, Option.some.injEq, Prod.mk.injEq] at hmem
      rcases hmem with hmem | ⟨rfl, rfl⟩
      · exact h.nonzero t v' hmem
      · exact hz
    · intro k p hp
      obtain ⟨kept, h1, h2⟩ := h.rep k p hp
      have hc : (newObj ({ s.put v.kind (CApi.step (s.cache v.kind) (.store ⟨e.addr a.next, a.next⟩)) with cells := s.cells ++ [v] } : St ν) v.kind (e.addr a.next)).1.cache k =
          if k = v.kind then CApi.step (s.cache v.kind) (.store ⟨e.addr a.next, a.next⟩) else s.cache k := rfl
      rw [hc]
      have hh : held e.addr (a.add v).1.objs k p = held e.addr a.objs k p + (if v.kind = k ∧ e.addr a.next = p then 1 else 0) := by
        simp only [held, Sp.add, List.countP_append, List.countP_cons, List.countP_nil, isAt, Nat.zero_add, Bool.and_eq_true, decide_eq_true_eq]
      rw [hh]
      by_cases hk : k = v.kind
      · subst hk
        rw [if_pos rfl]
        have hr := rep_step hp h1 (.store ⟨e.addr a.next, a.next⟩)
        by_cases hpt : e.addr a.next = p
        · simp only [refs, CApi.kept, hpt, if_true] at hr
          rw [if_pos ⟨rfl, hpt⟩]
          subst hpt
          have h0 : held e.addr a.objs v.kind (e.addr a.next) = 0 := by
            unfold held
            rw [List.countP_eq_zero]
            intro o ho
            cases o with
            | none => simp [isAt]
            | some y => simp [isAt, hl y.1 y.2 ho]
          rw [if_pos h0] at hr
          refine ⟨_, hr, ?_⟩
          intro t v' hmem _ he
          simp only [Sp.add, List.mem_append, List.mem_singleton, Option.some.injEq, Prod.mk.injEq] at hmem
          rcases hmem with hmem | ⟨rfl, _⟩
          · exact absurd he (hl t v' hmem)
          · rfl
        · simp only [refs, CApi.kept, hpt, if_false] at hr
          rw [if_neg (fun hh => hpt hh.2)]
          refine ⟨_, hr, ?_⟩
          intro t v' hmem hk he
          simp only [Sp.add, List.mem_append, List.mem_singleton, Option.some.injEq, Prod.mk.injEq] at hmem
          rcases hmem with hmem | ⟨rfl, _⟩
          · exact h2 t v' hmem hk he
          · exact absurd he hpt
      · rw [if_neg hk, if_neg (fun hh => hk hh.1.symm)]
        refine ⟨kept, h1, ?_⟩
        intro t v' hmem hk' he
        simp only [Sp.add, List.mem_append, List.mem_singleton, Option.some.injEq, Prod.mk.injEq] at hmem
        rcases hmem with hmem | ⟨_, rfl⟩
        · exact h2 t v' hmem hk' he
        · exact absurd hk'.symm hk
  · simp [newObj, Sp.add, St.put, h.objs]

theorem set_mem {l : List (Option (Nat × Obj ν))} {x : Nat} {y : Nat × Obj ν} (h : some y ∈ l.set x none) : some y ∈ l := by
  rcases List.mem_or_eq_of_mem_set h with h | h
  · exact h
  · cases h

theorem collect_spec {addr : Nat → Nat} {s : St ν} {a : Sp ν} (h : Inv addr s a) (x : Nat) : Inv addr (collect s x).1 { a with objs := a.objs.set x none } := by
  unfold collect
  rw [obj_at h]
  cases hx : (a.objs[x]?).getD none with
  | none =>
    have e : a.objs.set x none = a.objs := by
      cases hx' : a.objs[x]? with
      | none => exact List.set_eq_of_length_le (by simpa using hx')
      | some o =>
        rw [hx'] at hx
        simp at hx
        subst hx
        obtain ⟨hlt, he⟩ := List.getElem?_eq_some_iff.1 hx'
        rw [← he]; exact List.set_getElem_self hlt
    rw [e]
    exact h
  | some y =>
    obtain ⟨t, v⟩ := y
    have hm := mem_at hx
    have hz := h.nonzero t v hm
    have hx' : a.objs[x]? = some (some (t, v)) := by
      cases hx' : a.objs[x]? with
      | none => rw [hx'] at hx; cases hx
      | some o => rw [hx'] at hx; simp at hx; rw [hx]
    obtain ⟨hlt, he⟩ := List.getElem?_eq_some_iff.1 hx'
    refine ⟨h.world, h.next, ?_, ?_, ?_, ?_⟩
    · show s.objs.set x none = _
      rw [h.objs]; simp [List.map_set]
    · intro t' v' hm'; exact h.cells t' v' (set_mem hm')
    · intro t' v' hm'; exact h.nonzero t' v' (set_mem hm')
    · intro k p hp
      obtain ⟨kept, h1, h2⟩ := h.rep k p hp
      have hh : held addr (a.objs.set x none) k p = held addr a.objs k p - (if v.kind = k ∧ addr t = p then 1 else 0) := by
        unfold held
        rw [List.countP_set hlt, he]
        simp [isAt]
      show ∃ kept, Rep (if k = v.kind then CApi.step (s.cache v.kind) (.erase (addr t)) else s.cache k) p (held addr (a.objs.set x none) k p) kept ∧ _
      rw [hh]
      by_cases hk : k = v.kind
      · subst hk
        rw [if_pos rfl]
        have hr := rep_step hp h1 (.erase (addr t))
        by_cases hpt : addr t = p
        · subst hpt
          simp only [refs, CApi.kept, if_true] at hr
          rw [if_pos ⟨rfl, rfl⟩]
          refine ⟨_, hr, ?_⟩
          intro t' v' hm' hk' he'
          have h3 := h2 t' v' (set_mem hm') hk' he'
          have hcount : 2 ≤ held addr a.objs v.kind (addr t) := by
            have hpos : 0 < held addr (a.objs.set x none) v.kind (addr t) := by
              unfold held
              rw [List.countP_pos_iff]
              exact ⟨_, hm', by simp [isAt, he', hk']⟩
            rw [hh, if_pos ⟨rfl, rfl⟩] at hpos
            omega
          rw [if_neg (by omega)]
          exact h3
        · simp only [refs, CApi.kept, hpt, if_false] at hr
          rw [if_neg (fun hh => hpt hh.2)]
          exact ⟨_, hr, fun t' v' hm' hk' he' => h2 t' v' (set_mem hm') hk' he'⟩
      · rw [if_neg hk, if_neg (fun hh => hk hh.1.symm)]
        exact ⟨kept, h1, fun t' v' hm' hk' he' => h2 t' v' (set_mem hm') hk' he'⟩

theorem pointers_spec {e : Env ν} {s : St ν} {a : Sp ν} (h : Inv e.addr s a) (l : List Nat) :
    (a.tracks l = none ∧ pointers s l = none) ∨ ∃ ps ts, a.tracks l = some ts ∧ pointers s l = some ps ∧ tracksOf e s ps = some (.ok ts) := by
  induction l with
  | nil => exact .inr ⟨[], [], rfl, rfl, rfl⟩
  | cons x xs ih =>
    simp only [Sp.tracks, pointers, Sp.val]
    rw [obj_at h]
    cases hx : (a.objs[x]?).getD none with
    | none => exact .inl ⟨rfl, rfl⟩
    | some y =>
      obtain ⟨t, v⟩ := y
      have hlk := look_obj h (mem_at hx)
      cases v with
      | set l => exact .inl ⟨rfl, rfl⟩
      | camera c => exact .inl ⟨rfl, rfl⟩
      | track tr =>
        simp only [Option.map_some, Obj.kind]
        simp only [Obj.kind] at hlk
        rcases ih with ⟨h1, h2⟩ | ⟨ps, ts, h1, h2, h3⟩
        · exact .inl ⟨by rw [h1], by rw [h2]; rfl⟩
        · exact .inr ⟨e.addr t :: ps, tr :: ts, by rw [h1], by rw [h2]; rfl, by simp only [tracksOf, hlk, h3]; rfl⟩

/-- One statement. -/
theorem step_spec [DecidableEq ν] {e : Env ν} (hu : ∀ n, n + 1 ≤ e.usable n) {s : St ν} {a : Sp ν} (h : Inv e.addr s a) (op : Op)
    (hl : (spec e a op).1.next ≠ a.next → e.addr a.next ≠ 0 ∧ ∀ t v, some (t, v) ∈ a.objs → e.addr t ≠ e.addr a.next) :
    Inv e.addr (step e s op).1 (spec e a op).1 ∧ (step e s op).2 = (spec e a op).2 := by
  have hadd : ∀ v, spec e a op = a.add v → ∃ s' p, make e s v = (s', .ok p) ∧ Inv e.addr (newObj s' v.kind p).1 (a.add v).1 ∧ (newObj s' v.kind p).2 = (a.add v).2 := by
    intro v hv
    rw [hv] at hl
    have := hl (by simp [Sp.add])
    exact make_spec h v this.1 this.2
  cases op with
  | newTrack =>
    obtain ⟨s', p, h1, h2, h3⟩ := hadd (.track ⟨[], 0⟩) rfl
    have h1' : make e s (.track Track.mkEmpty) = (s', .ok p) := h1
    simp only [step, newTrack, h1', spec]
    exact ⟨h2, h3⟩
  | newSet l =>
    have key : ∀ l', l.getD [] = l' → spec e a (.newSet l) = (match a.tracks l' with | some ts => a.add (.set ts) | none => (a, some (.error .argument))) := by
      intro l' hl'
      cases l with
      | none => subst hl'; rfl
      | some l => subst hl'; rfl
    have key := key _ rfl
    simp only [step, newSet]
    rcases pointers_spec h (l.getD []) with ⟨h1, h2⟩ | ⟨ps, ts, h1, h2, h3⟩
    · rw [h1] at key
      rw [key]
      simp only [h2]
      exact ⟨h, after_ok hu _ _⟩
    · rw [h1] at key
      obtain ⟨s', p, g1, g2, g3⟩ := hadd (.set ts) key
      rw [key]
      simp only [h2, h3, g1]
      exact ⟨g2, g3⟩
  | readSet f =>
    simp only [step, readSet]
    rw [h.world]
    cases hr : readTrackFile e.f e.junkI e.junk a.world (cstr f) with
    | error x =>
      simp only [spec, hr]
      refine ⟨h, ?_⟩
      rw [after_ok hu, raised_ok hu]
    | ok ts =>
      have key : spec e a (.readSet f) = a.add (.set ts) := by simp only [spec, hr]
      obtain ⟨s', p, g1, g2, g3⟩ := hadd _ key
      rw [key]
      simp only [g1]
      exact ⟨g2, g3⟩
  | readCamera f =>
    simp only [step, readCamera]
    rw [h.world]
    cases hr : readKrtdFile e.f e.z e.junkC a.world (cstr f) with
    | error x =>
      simp only [spec, hr]
      refine ⟨h, ?_⟩
      rw [after_ok hu, raised_ok hu]
    | ok ts =>
      have key : spec e a (.readCamera f) = a.add (.camera ts) := by simp only [spec, hr]
      obtain ⟨s', p, g1, g2, g3⟩ := hadd _ key
      rw [key]
      simp only [g1]
      exact ⟨g2, g3⟩
  | len x =>
    refine ⟨h, ?_⟩
    simp only [step, len, spec, Sp.val]
    rw [obj_at h]
    cases hx : (a.objs[x]?).getD none with
    | none => rfl
    | some y =>
      obtain ⟨t, v⟩ := y
      have hlk := look_obj h (mem_at hx)
      cases v <;> simp only [Obj.kind] at hlk <;> simp only [Option.map_some, Obj.kind, hlk]
  | isEmpty x =>
    refine ⟨h, ?_⟩
    simp only [step, isEmpty, spec, Sp.val]
    rw [obj_at h]
    cases hx : (a.objs[x]?).getD none with
    | none => rfl
    | some y =>
      obtain ⟨t, v⟩ := y
      have hlk := look_obj h (mem_at hx)
      cases v <;> simp only [Obj.kind] at hlk <;> simp only [Option.map_some, Obj.kind, hlk]
      rename_i tr
      cases hh : tr.history <;> simp
  | truth x =>
    refine ⟨h, ?_⟩
    simp only [step, truth, spec, Sp.val]
    rw [obj_at h]
    cases hx : (a.objs[x]?).getD none with
    | none => rfl
    | some y =>
      have := h.nonzero y.1 y.2 (mem_at hx)
      simp [this]
  | writeSet x f =>
    simp only [step, writeSet, spec, Sp.val]
    rw [obj_at h]
    cases hx : (a.objs[x]?).getD none with
    | none => exact ⟨h, rfl⟩
    | some y =>
      obtain ⟨t, v⟩ := y
      have hlk := look_obj h (mem_at hx)
      cases v with
      | track tr => exact ⟨h, rfl⟩
      | camera c => exact ⟨h, rfl⟩
      | set l =>
        simp only [Obj.kind] at hlk
        simp only [Option.map_some, Obj.kind, hlk, h.world, Sp.wrote]
        rcases hw : writeTrackFile e.f e.disk a.world (some l) (cstr f) with ⟨w, r⟩
        cases r with
        | ok u => exact ⟨⟨rfl, h.next, h.objs, h.cells, h.nonzero, h.rep⟩, rfl⟩
        | error x => exact ⟨⟨rfl, h.next, h.objs, h.cells, h.nonzero, h.rep⟩, raised_ok hu _⟩
  | writeCamera x f =>
    simp only [step, writeCamera, spec, Sp.val]
    rw [obj_at h]
    cases hx : (a.objs[x]?).getD none with
    | none => exact ⟨h, rfl⟩
    | some y =>
      obtain ⟨t, v⟩ := y
      have hlk := look_obj h (mem_at hx)
      cases v with
      | track tr => exact ⟨h, rfl⟩
      | set c => exact ⟨h, rfl⟩
      | camera l =>
        simp only [Obj.kind] at hlk
        simp only [Option.map_some, Obj.kind, hlk, h.world, Sp.wrote]
        rcases hw : writeKrtdFile e.f e.z e.disk a.world l (cstr f) with ⟨w, r⟩
        cases r with
        | ok u => exact ⟨⟨rfl, h.next, h.objs, h.cells, h.nonzero, h.rep⟩, rfl⟩
        | error x => exact ⟨⟨rfl, h.next, h.objs, h.cells, h.nonzero, h.rep⟩, raised_ok hu _⟩
  | collect x =>
    refine ⟨collect_spec h x, ?_⟩
    show (collect s x).2 = _
    unfold collect
    split <;> rfl

theorem run_spec [DecidableEq ν] {e : Env ν} (hu : ∀ n, n + 1 ≤ e.usable n) (ops : List Op) : ∀ {s : St ν} {a : Sp ν}, Inv e.addr s a → LegalRun e a ops →
    Inv e.addr (run e s ops).1 (specRun e a ops).1 ∧ (run e s ops).2 = (specRun e a ops).2 := by
  induction ops with
  | nil => intro s a h _; exact ⟨h, rfl⟩
  | cons op ops ih =>
    intro s a h hl
    obtain ⟨h1, h2⟩ := step_spec hu h op hl.1
    obtain ⟨i1, i2⟩ := ih h1 hl.2
    refine ⟨i1, ?_⟩
    simp only [run, specRun, h2, i2]

/-! ### C277 -/

/-- What holds: with an allocator whose blocks always have a byte to spare, every history of statements on Track, TrackSet and Camera objects answers as
    if each object were a value: a set has the tracks it was made of, in order, whatever was collected since; lengths, truth values, exceptions
    and written files are those of the specification.
    Missing: allocators without a spare byte (an exception's message is written one byte past its block). -/
theorem C277_values_partial [DecidableEq ν] (e : Env ν) (hu : ∀ n, n + 1 ≤ e.usable n) (w : World) (ops : List Op) (hl : LegalRun e ⟨[], 0, w⟩ ops) :
    (run e (St.init w) ops).2 = (specRun e ⟨[], 0, w⟩ ops).2 ∧ (run e (St.init w) ops).1.world = (specRun e ⟨[], 0, w⟩ ops).1.world := by
  obtain ⟨h1, h2⟩ := run_spec hu ops (inv_init e.addr w) hl
  exact ⟨h2, h1.world⟩

/-- Nothing leaks: after any history the caches hold exactly the C++ objects of Python objects that are not collected. -/
theorem C277_no_leak [DecidableEq ν] (e : Env ν) (hu : ∀ n, n + 1 ≤ e.usable n) (w : World) (ops : List Op) (hl : LegalRun e ⟨[], 0, w⟩ ops) (k : Kind) (p : Nat) (hp : p ≠ 0) :
    (∃ t v, some (t, v) ∈ (specRun e ⟨[], 0, w⟩ ops).1.objs ∧ v.kind = k ∧ e.addr t = p) ↔ ∃ sp, get ((run e (St.init w) ops).1.cache k) p = .ok sp := by
  have h := (run_spec hu ops (inv_init e.addr w) hl).1
  obtain ⟨kept, ⟨h1, _, h3⟩, h2⟩ := h.rep k p hp
  constructor
  · rintro ⟨t, v, hm, hk, ha⟩
    refine ⟨⟨p, t⟩, ?_⟩
    unfold CApi.get
    rw [if_neg hp, h1, h2 t v hm hk ha]
  · rintro ⟨sp, hg⟩
    unfold CApi.get at hg
    rw [if_neg hp, h1] at hg
    cases hk : kept with
    | none => rw [hk] at hg; cases hg
    | some x =>
      have hn := h3.1 (by rw [hk]; rfl)
      obtain ⟨o, ho, hi⟩ := List.countP_pos_iff.1 (Nat.pos_of_ne_zero hn)
      cases o with
      | none => cases hi
      | some y =>
        simp only [isAt, Bool.and_eq_true, decide_eq_true_eq] at hi
        exact ⟨y.1, y.2, ho, hi.1, hi.2⟩

/-- C277 is false of the code: with blocks of exactly the requested size every exception is undefined behaviour. -/
theorem C277_refuted : ¬ C277_statement (ν := Int) (fun n => n) := by
  intro h
  have := (h ⟨intFmt, 0, fun _ => 0, fun _ => 0, 0, { canWrite := fun _ _ => false, makeDir := fun _ _ => none }, fun n => n, fun t => t + 1, fun _ => [], fun _ => []⟩ {} [.readCamera []] rfl
    ⟨(by intro hn; exact absurd rfl hn), trivial⟩).1
  revert this
  decide +kernel

/-! ### C278: files of track sets -/

/-- A file can be written: it is no directory, its directory exists or is made. -/
def Writable (e : Env ν) (w : World) (file : Str) : Prop :=
  cstr file ≠ [] ∧ w.isDir (cstr file) = false ∧ ∃ w1, Prepared e.disk w (cstr file) w1 ∧ e.disk.canWrite w1 (cstr file) = true ∧ w1.isDir (cstr file) = false

/-- Full property C278: a track set written with write_tracks_file and read with TrackSet.from_file is as long as it was. -/
def C278_statement (ν : Type) [DecidableEq ν] : Prop := ∀ (e : Env ν) (w : World) (ops : List Op) (x n : Nat) (file : Str), (∀ n, n + 1 ≤ e.usable n) →
  LegalRun e ⟨[], 0, w⟩ (ops ++ [.len x, .writeSet x file, .readSet file]) → Writable e (run e (St.init w) ops).1.world file →
  (run e (St.init w) (ops ++ [.len x])).2.getLast? = some (some (.ok (.int n))) →
  ∃ y, (run e (St.init w) (ops ++ [.len x, .writeSet x file, .readSet file])).2.getLast? = some (some (.ok (.obj y))) ∧
    (run e (St.init w) (ops ++ [.len x, .writeSet x file, .readSet file, .len y])).2.getLast? = some (some (.ok (.int n)))

theorem run_append [DecidableEq ν] (e : Env ν) (l l' : List Op) : ∀ s : St ν, run e s (l ++ l') = ((run e (run e s l).1 l').1, (run e s l).2 ++ (run e (run e s l).1 l').2) := by
  induction l with
  | nil => intro s; rfl
  | cons op l ih => intro s; simp only [List.cons_append, run, ih]

theorem specRun_append [DecidableEq ν] (e : Env ν) (l l' : List Op) :
    ∀ a : Sp ν, specRun e a (l ++ l') = ((specRun e (specRun e a l).1 l').1, (specRun e a l).2 ++ (specRun e (specRun e a l).1 l').2) := by
  induction l with
  | nil => intro s; rfl
  | cons op l ih => intro s; simp only [List.cons_append, specRun, ih]

/-- A file written by track tracks without a state is empty. -/
theorem lost_text (f : NumFmt ν) (ts : List (FTrack ν Unit)) (h : ∀ t ∈ ts, t.history = []) : trackText f ts = [] := by
  have : trackLines f ts = [] := by
    unfold trackLines
    rw [List.flatMap_eq_nil_iff]
    intro t ht
    rw [h t ht]
    rfl
  unfold trackText
  rw [this]
  rfl

theorem write_read {f : NumFmt ν} {ts : List (FTrack ν Unit)} (hne : ts ≠ []) (junkI : Nat → Int) (junk : Nat → ν)
    {d : Parser.Disk} {w w1 : World} {path : Str} (hpath : path ≠ []) (hdir : w.isDir path = false) (hprep : Prepared d w path w1)
    (hcan : d.canWrite w1 path = true) (hw1 : w1.isDir path = false) :
    ∃ w', writeTrackFile f d w (some ts) path = (w', .ok ()) ∧ readTrackFile f junkI junk w' path = trackRead f junkI junk (trackText f ts) := by
  refine ⟨Parser.World.store w1 path (trackText f ts), ?_, ?_⟩
  · show (if ts.length = 0 then _ else _) = _
    rw [if_neg (by simpa using hne)]
    exact writeText_ok _ hdir hprep hcan
  · have hd : fileIsDirectory (Parser.World.store w1 path (trackText f ts)) path = false := by
      unfold fileIsDirectory Parser.World.store
      simp [hw1]
    unfold readTrackFile
    rw [if_neg (by unfold fileExists Parser.World.store; simp [hpath]), hd]
    unfold Parser.World.store
    simp only [if_true, Bool.false_eq_true, if_false]

/-- The value a set object has after a program, in the specification. -/
def SetIs [DecidableEq ν] (e : Env ν) (w : World) (ops : List Op) (x : Nat) (ts : List (FTrack ν Unit)) : Prop := (specRun e ⟨[], 0, w⟩ ops).1.val x = some (.set ts)

theorem write_read_run [DecidableEq ν] {e : Env ν} (hu : ∀ n, n + 1 ≤ e.usable n) {w : World} {ops : List Op} {x : Nat} {file : Str}
    {ts ts' : List (FTrack ν Unit)} (hl : LegalRun e ⟨[], 0, w⟩ (ops ++ [.writeSet x file, .readSet file])) (hw : Writable e (run e (St.init w) ops).1.world file)
    (hx : SetIs e w ops x ts) (hne : ts ≠ []) (hr : trackRead e.f e.junkI e.junk (trackText e.f ts) = .ok ts') :
    (run e (St.init w) (ops ++ [.writeSet x file, .readSet file])).2 = (run e (St.init w) ops).2 ++ [some (.ok .none), some (.ok (.obj (specRun e ⟨[], 0, w⟩ ops).1.objs.length))] ∧
      SetIs e w (ops ++ [.writeSet x file, .readSet file]) (specRun e ⟨[], 0, w⟩ ops).1.objs.length ts' := by
  have hlo : LegalRun e ⟨[], 0, w⟩ ops := by
    have : ∀ (l l' : List Op) (a : Sp ν), LegalRun e a (l ++ l') → LegalRun e a l := by
      intro l l'
      induction l with
      | nil => intro _ _; trivial
      | cons op l ih => intro a h; exact ⟨h.1, ih _ h.2⟩
    exact this _ _ _ hl
  obtain ⟨i0, j0⟩ := run_spec hu ops (inv_init e.addr w) hlo
  have hrun := (C277_values_partial e hu w _ hl).1
  rw [i0.world] at hw
  obtain ⟨hp, hd, w1, h1, h2, h3⟩ := hw
  obtain ⟨w', g1, g2⟩ := write_read (f := e.f) hne e.junkI e.junk hp hd h1 h2 h3
  rw [hr] at g2
  unfold SetIs at hx ⊢
  rw [hrun, specRun_append, j0]
  generalize specRun e ⟨[], 0, w⟩ ops = r at hx g1 ⊢
  have s1 : spec e r.1 (.writeSet x file) = ({ r.1 with world := w' }, some (.ok .none)) := by
    simp only [spec, hx, Sp.wrote, g1]
  have s2 : spec e { r.1 with world := w' } (.readSet file) = ({ r.1 with world := w' } : Sp ν).add (.set ts') := by
    simp only [spec, g2]
  refine ⟨?_, ?_⟩
  · simp only [specRun, s1, s2, Sp.add]
  · simp only [specRun, s1, s2, Sp.add, Sp.val]
    simp

/-- With addresses that are never used twice every program is legal. -/
theorem legal_fresh [DecidableEq ν] (e : Env ν) (ha : ∀ i, e.addr i ≠ 0) (hi : ∀ i j, e.addr i = e.addr j → i = j) :
    ∀ (ops : List Op) (a : Sp ν), (∀ t v, some (t, v) ∈ a.objs → t < a.next) → LegalRun e a ops := by
  intro ops
  induction ops with
  | nil => intro _ _; trivial
  | cons op ops ih =>
    intro a h
    refine ⟨fun _ => ⟨ha _, fun t v hm he => absurd (hi _ _ he) (Nat.ne_of_lt (h t v hm))⟩, ih _ ?_⟩
    have hadd : ∀ v, ∀ t v', some (t, v') ∈ (a.add v).1.objs → t < (a.add v).1.next := by
      intro v t v' hm
      simp only [Sp.add, List.mem_append, List.mem_singleton, Option.some.injEq, Prod.mk.injEq] at hm ⊢
      rcases hm with hm | ⟨rfl, _⟩
      · exact Nat.lt_succ_of_lt (h t v' hm)
      · exact Nat.lt_succ_self _
    cases op with
    | newTrack => exact hadd _
    | newSet l =>
      cases l with
      | none => exact hadd _
      | some l => simp only [spec]; split; exact hadd _; exact h
    | readSet f => simp only [spec]; split; exact hadd _; exact h
    | readCamera f => simp only [spec]; split; exact hadd _; exact h
    | len x => exact h
    | isEmpty x => exact h
    | truth x => exact h
    | writeSet x f => simp only [spec]; split; exact h; exact h
    | writeCamera x f => simp only [spec]; split; exact h; exact h
    | collect x => intro t v hm; exact h t v (set_mem hm)

/-- Whatever set Python makes of tracks it made: no track has a state, the file written is empty, and the set read back has no tracks. -/
theorem C278_lost [DecidableEq ν] (e : Env ν) (hu : ∀ n, n + 1 ≤ e.usable n) (w : World) (n : Nat) (file : Str) (hn : 0 < n)
    (ha : ∀ i, e.addr i ≠ 0) (hi : ∀ i j, e.addr i = e.addr j → i = j) (hw : Writable e w file) :
    (run e (St.init w) (List.replicate n .newTrack ++ [.newSet (some (List.range n)), .writeSet n file, .readSet file, .len n, .len (n + 1)])).2 =
      (List.range (n + 1)).map (fun i => some (.ok (.obj i))) ++ [some (.ok .none), some (.ok (.obj (n + 1))), some (.ok (.int n)), some (.ok (.int 0))] := by
  rw [(C277_values_partial e hu w _ (legal_fresh e ha hi _ _ (by simp))).1]
  have h1 : ∀ m, specRun e ⟨[], 0, w⟩ (List.replicate m .newTrack) =
      ((⟨(List.range m).map (fun i => some (i, .track ⟨[], 0⟩)), m, w⟩ : Sp ν), (List.range m).map (fun i => some (.ok (.obj i)))) := by
    intro m
    induction m with
    | zero => rfl
    | succ m ih =>
      rw [List.replicate_succ', specRun_append, ih]
      simp only [specRun, spec, Sp.add, List.range_succ, List.map_append, List.length_map, List.length_range]
      rfl
  rw [specRun_append, h1]
  have h2 : ∀ l : List Nat, (∀ i ∈ l, i < n) → (⟨(List.range n).map (fun i => some (i, .track ⟨[], 0⟩)), n, w⟩ : Sp ν).tracks l = some (l.map fun _ => ⟨[], 0⟩) := by
    intro l
    induction l with
    | nil => intro _; rfl
    | cons i l ih =>
      intro h
      have hi := h i (by simp)
      simp only [Sp.tracks, ih (fun j hj => h j (by simp [hj])), Sp.val]
      simp [hi]
  have h3 := h2 (List.range n) (by simp)
  have hne : ((List.range n).map fun _ => (⟨[], 0⟩ : FTrack ν Unit)) ≠ [] := by
    intro he
    have := congrArg List.length he
    simp at this
    omega
  have hlost : trackRead e.f e.junkI e.junk (trackText e.f ((List.range n).map fun _ => (⟨[], 0⟩ : FTrack ν Unit))) = .ok [] := by
    rw [lost_text _ _ (by intro t ht; simp at ht; rw [← ht.2])]
    rfl
  obtain ⟨hp, hd, w1, p1, p2, p3⟩ := hw
  obtain ⟨w', g1, g2⟩ := write_read (f := e.f) hne e.junkI e.junk hp hd p1 p2 p3
  rw [hlost] at g2
  have s0 : spec e (⟨(List.range n).map (fun i => some (i, .track ⟨[], 0⟩)), n, w⟩ : Sp ν) (.newSet (some (List.range n))) =
      (⟨(List.range n).map (fun i => some (i, .track ⟨[], 0⟩)) ++ [some (n, .set ((List.range n).map fun _ => ⟨[], 0⟩))], n + 1, w⟩, some (.ok (.obj n))) := by
    simp only [spec, h3, Sp.add]
    simp
  have v0 : (⟨(List.range n).map (fun i => some (i, .track ⟨[], 0⟩)) ++ [some (n, .set ((List.range n).map fun _ => ⟨[], 0⟩))], n + 1, w⟩ : Sp ν).val n =
      some (.set ((List.range n).map fun _ => ⟨[], 0⟩)) := by
    simp [Sp.val]
  simp only [specRun, s0]
  have s1 : spec e (⟨(List.range n).map (fun i => some (i, .track ⟨[], 0⟩)) ++ [some (n, .set ((List.range n).map fun _ => ⟨[], 0⟩))], n + 1, w⟩ : Sp ν) (.writeSet n file) =
      (⟨(List.range n).map (fun i => some (i, .track ⟨[], 0⟩)) ++ [some (n, .set ((List.range n).map fun _ => ⟨[], 0⟩))], n + 1, w'⟩, some (.ok .none)) := by
    simp only [spec, v0, Sp.wrote, g1]
  simp only [s1]
  have s2 : spec e (⟨(List.range n).map (fun i => some (i, .track ⟨[], 0⟩)) ++ [some (n, .set ((List.range n).map fun _ => ⟨[], 0⟩))], n + 1, w'⟩ : Sp ν) (.readSet file) =
      (⟨(List.range n).map (fun i => some (i, .track ⟨[], 0⟩)) ++ [some (n, .set ((List.range n).map fun _ => ⟨[], 0⟩))] ++ [some (n + 1, .set [])], n + 2, w'⟩, some (.ok (.obj (n + 1)))) := by
    simp only [spec, g2, Sp.add]
    simp
  simp only [s2]
  have v1 : (⟨(List.range n).map (fun i => some (i, .track ⟨[], 0⟩)) ++ [some (n, .set ((List.range n).map fun _ => ⟨[], 0⟩))] ++ [some (n + 1, .set [])], n + 2, w'⟩ : Sp ν).val n =
      some (.set ((List.range n).map fun _ => ⟨[], 0⟩)) := by
    simp [Sp.val]
  have v2 : (⟨(List.range n).map (fun i => some (i, .track ⟨[], 0⟩)) ++ [some (n, .set ((List.range n).map fun _ => ⟨[], 0⟩))] ++ [some (n + 1, .set [])], n + 2, w'⟩ : Sp ν).val (n + 1) =
      some (.set []) := by
    have : ((List.range n).map (fun i => some (i, Obj.track (⟨[], 0⟩ : FTrack ν Unit))) ++ [some (n, .set ((List.range n).map fun _ => (⟨[], 0⟩ : FTrack ν Unit)))] ++ [some (n + 1, .set [])])[n + 1]? =
        some (some (n + 1, .set [])) := by
      rw [List.getElem?_append_right (by simp)]
      simp
    simp only [Sp.val, this]
    rfl
  have s3 : ∀ a : Sp ν, (spec e a (.len n)).1 = a := fun _ => rfl
  simp only [s3]
  simp only [spec, v1, v2, List.range_succ, List.map_append]
  simp

/-- What holds: a set whose tracks have distinct ids and non-empty histories in frame order comes back with the same tracks in the same order
    (numbers up to the printed precision), so as long as it was.
    Missing: tracks without a state - all that Python can make (C278_lost). -/
theorem C278_round_trip_partial [DecidableEq ν] {good : ν → Prop} {rnd : ν → ν} {e : Env ν} (hu : ∀ n, n + 1 ≤ e.usable n) (hf : e.f.Lawful good rnd) {w : World} {ops : List Op} {x : Nat} {file : Str}
    {ts : List (FTrack ν Unit)} (hl : LegalRun e ⟨[], 0, w⟩ (ops ++ [.writeSet x file, .readSet file])) (hw : Writable e (run e (St.init w) ops).1.world file)
    (hx : SetIs e w ops x ts) (hne : ts ≠ []) (hid : (ts.map (·.id)).Nodup) (hh : ∀ t ∈ ts, t.history ≠ [] ∧ Track.Ordered t) (hg : ∀ t ∈ ts, GoodTrack good t) :
    (run e (St.init w) (ops ++ [.writeSet x file, .readSet file])).2 = (run e (St.init w) ops).2 ++ [some (.ok .none), some (.ok (.obj (specRun e ⟨[], 0, w⟩ ops).1.objs.length))] ∧
      SetIs e w (ops ++ [.writeSet x file, .readSet file]) (specRun e ⟨[], 0, w⟩ ops).1.objs.length (ts.map (readBackTrack rnd)) :=
  write_read_run hu hl hw hx hne (C55_round_trip hf hid hh hg e.junkI e.junk)

/-! ### Non-trivial cases -/

def demoDisk : Parser.Disk := { canWrite := fun _ _ => true, makeDir := fun _ _ => none }

def demoWorld : World where
  isDir := fun p => p == c!"/"
  readable := fun p => p == c!"/t" || p == c!"/"
  content := fun p => if p = c!"/t" then some (c!"5 1 1 1 1 1 1 1 1 1\n2 1 2 2 1 1 1 1 1 1\n5 3 3 3 1 1 1 1 1 1\n") else none

def demoEnv : Env Int := ⟨intFmt, 0, fun _ => 0, fun _ => 0, 0, demoDisk, fun n => n + 1, fun t => t + 1, fun _ => c!"io", fun _ => c!"null"⟩

/-- A set keeps its tracks when they are collected; a set of nothing is true; a set in a list of tracks is refused. -/
example : (run demoEnv (St.init demoWorld) [.newTrack, .newTrack, .newSet (some [1, 0, 1]), .collect 0, .collect 1, .len 2, .len 0, .newSet none, .len 3, .truth 3,
      .newSet (some [2]), .readSet (c!"/t"), .len 4, .readSet (c!"/no"), .writeSet 3 (c!"/u"), .writeSet 4 (c!"/u"), .readSet (c!"/u"), .len 5, .isEmpty 5]).2 =
    [some (.ok (.obj 0)), some (.ok (.obj 1)), some (.ok (.obj 2)), some (.ok .none), some (.ok .none), some (.ok (.int 3)), some (.error .argument), some (.ok (.obj 3)),
      some (.ok (.int 0)), some (.ok (.bool true)), some (.error .argument), some (.ok (.obj 4)), some (.ok (.int 2)), fails (c!"io"), fails (c!"io"), some (.ok .none),
      some (.ok (.obj 5)), some (.ok (.int 2)), some (.error .argument)] := by decide +kernel

theorem demo_writable : Writable demoEnv demoWorld (c!"/u") :=
  ⟨by decide, by decide, demoWorld, (by unfold Prepared; exact (if_pos (by decide +kernel)).mpr rfl), rfl, by decide⟩

/-- C278 is false of the code: a set of one track made in Python. -/
theorem C278_refuted : ¬ C278_statement Int := by
  intro h
  have hl : LegalRun demoEnv (⟨[], 0, demoWorld⟩ : Sp Int) ([.newTrack, .newSet (some [0])] ++ [.len 1, .writeSet 1 (c!"/u"), .readSet (c!"/u")]) :=
    legal_fresh _ (fun _ => Nat.succ_ne_zero _) (fun _ _ h => Nat.succ.inj h) _ _ (by simp)
  obtain ⟨y, h1, h2⟩ := h demoEnv demoWorld [.newTrack, .newSet (some [0])] 1 1 (c!"/u") (fun n => Nat.le_refl _) hl
    demo_writable (by decide +kernel)
  have hy : (run demoEnv (St.init demoWorld) ([.newTrack, .newSet (some [0])] ++ [.len 1, .writeSet 1 (c!"/u"), .readSet (c!"/u")])).2.getLast? = some (some (.ok (.obj 2))) := by decide +kernel
  rw [hy] at h1
  simp only [Option.some.injEq, Except.ok.injEq, Val.obj.injEq] at h1
  subst h1
  revert h2
  decide +kernel

/-- A set read from a file has the form C278_round_trip_partial asks for. -/
example : SetIs demoEnv demoWorld [.readSet (c!"/t")] 0 [⟨[⟨1, ⟨⟨1, 1⟩, 1, 1, 1, ⟨1, 1, 1⟩⟩, ()⟩, ⟨3, ⟨⟨3, 3⟩, 1, 1, 1, ⟨1, 1, 1⟩⟩, ()⟩], 5⟩, ⟨[⟨1, ⟨⟨2, 2⟩, 1, 1, 1, ⟨1, 1, 1⟩⟩, ()⟩], 2⟩] := by
  unfold SetIs
  rfl

end Vital.Py.Trk
