import Verif.CApi.Utils
/-
  The lifetime of the objects behind the C handles: tracks and track sets (track.cxx, track_set.cxx, algo_def/track_features.cxx), cameras and
  camera maps (camera.cxx, camera_map.cxx); property C248.  "Leaves" are tracks or cameras, "sets" track sets or camera maps.
-/
namespace Vital.CApi.Life
open Vital Vital.CApi

def upd {α : Type} (f : Nat → α) (a : Nat) (v : α) : Nat → α := fun x => if x = a then v else f x

/-- The heap: objects are numbered in the order they are made; of each the address, the use count of its shared pointers and whether it exists,
    of a set the leaves its shared pointers refer to; and the two caches (the tag of a shared pointer is the number of its object). -/
structure Mem where
  nl : Nat
  laddr : Nat → Nat
  lcount : Nat → Nat
  lalive : Nat → Bool
  ns : Nat
  saddr : Nat → Nat
  scount : Nat → Nat
  salive : Nat → Bool
  members : Nat → List Nat
  leafC : Cache
  setC : Cache

def Mem.init : Mem := ⟨0, fun _ => 0, fun _ => 0, fun _ => false, 0, fun _ => 0, fun _ => 0, fun _ => false, fun _ => [], empty, empty⟩

/-! std::shared_ptr; `none` is undefined behaviour: a pointer to a destroyed object is copied or given up. -/

-- models: std::shared_ptr, copy of a pointer to a leaf
def incL (m : Mem) (i : Nat) : Option Mem := if m.lalive i = true then some { m with lcount := upd m.lcount i (m.lcount i + 1) } else none

-- models: std::shared_ptr, end of a pointer to a leaf: the last one destroys the leaf
def decL (m : Mem) (i : Nat) : Option Mem :=
  if m.lalive i = true then
    if m.lcount i = 1 then some { m with lcount := upd m.lcount i 0, lalive := upd m.lalive i false }
    else some { m with lcount := upd m.lcount i (m.lcount i - 1) }
  else none

-- models: std::vector / std::map of shared pointers: copies, and the end, of all its elements
def each (f : Mem → Nat → Option Mem) : Mem → List Nat → Option Mem
  | m, [] => some m
  | m, i :: l => (f m i).bind (fun m => each f m l)

-- models: std::shared_ptr, copy of a pointer to a set
def incS (m : Mem) (i : Nat) : Option Mem := if m.salive i = true then some { m with scount := upd m.scount i (m.scount i + 1) } else none

-- models: std::shared_ptr, end of a pointer to a set: the last one destroys the set and the pointers in it
def decS (m : Mem) (i : Nat) : Option Mem :=
  if m.salive i = true then
    if m.scount i = 1 then each decL { m with scount := upd m.scount i 0, salive := upd m.salive i false } (m.members i)
    else some { m with scount := upd m.scount i (m.scount i - 1) }
  else none

-- models: vital/bindings/c/helpers/c_utils.h:178-198 (store, for a leaf, which is not null): a new entry is one more pointer
def storeL (m : Mem) (i : Nat) : Option Mem :=
  if m.leafC.cache.contains (m.laddr i) then some { m with leafC := (store m.leafC ⟨m.laddr i, i⟩).1 }
  else incL { m with leafC := (store m.leafC ⟨m.laddr i, i⟩).1 } i

-- models: vital/bindings/c/helpers/c_utils.h:178-198 (store, for a set)
def storeS (m : Mem) (i : Nat) : Option Mem :=
  if m.setC.cache.contains (m.saddr i) then some { m with setC := (store m.setC ⟨m.saddr i, i⟩).1 }
  else incS { m with setC := (store m.setC ⟨m.saddr i, i⟩).1 } i

-- models: vital/bindings/c/track.cxx:65-74, camera.cxx:53-61 (destroy) with c_utils.h:231-251 (erase): an entry that goes gives up its pointer;
-- the exception for NULL is caught and changes nothing
def dropL (m : Mem) (p : Nat) : Option Mem :=
  match m.leafC.cache.find? p with
  | none => some m
  | some sp =>
    if (erase m.leafC p).1.cache.contains p then some { m with leafC := (erase m.leafC p).1 }
    else decL { m with leafC := (erase m.leafC p).1 } sp.tag

-- models: vital/bindings/c/track_set.cxx:109-119, camera_map.cxx:82-90 (destroy)
def dropS (m : Mem) (p : Nat) : Option Mem :=
  match m.setC.cache.find? p with
  | none => some m
  | some sp =>
    if (erase m.setC p).1.cache.contains p then some { m with setC := (erase m.setC p).1 }
    else decS { m with setC := (erase m.setC p).1 } sp.tag

/-- `new` of a leaf, held by one shared pointer. -/
def allocL (m : Mem) (a : Nat) : Mem :=
  { m with nl := m.nl + 1, laddr := upd m.laddr m.nl a, lcount := upd m.lcount m.nl 1, lalive := upd m.lalive m.nl true }

/-- `new` of leaves at several addresses. -/
def allocLs : Mem → List Nat → Mem
  | m, [] => m
  | m, a :: l => allocLs (allocL m a) l

/-- `new` of a set with the given pointers, held by one shared pointer. -/
def allocS (m : Mem) (a : Nat) (l : List Nat) : Mem :=
  { m with ns := m.ns + 1, saddr := upd m.saddr m.ns a, scount := upd m.scount m.ns 1, salive := upd m.salive m.ns true, members := upd m.members m.ns l }

-- models: vital/bindings/c/track.cxx:51-62 (vital_track_new), camera.cxx:64-75 (a camera read from a file): stored, then the local pointer ends
def newLeaf (m : Mem) (a : Nat) : Option Mem := (storeL (allocL m a) m.nl).bind (fun m' => decL m' m.nl)

-- models: vital/bindings/c/track_set.cxx:68-72, camera_map.cxx:74-76: the set is made, stored, and the local pointer ends
def newSet (m : Mem) (a : Nat) (l : List Nat) : Option Mem := (storeS (allocS m a l) m.ns).bind (fun m' => decS m' m.ns)

-- models: vital/bindings/c/track_set.cxx:63-67, camera_map.cxx:67-73: the pointers of the handles; `none` when one is not in the cache
def lookup (c : Cache) : List Nat → Option (List Nat)
  | [] => some []
  | p :: l => match c.cache.find? p with
    | none => none
    | some sp => (lookup c l).map (sp.tag :: ·)

/-- What a program calls. -/
inductive Op where
  | newLeaf (a : Nat)
  | dropLeaf (p : Nat)
  | useLeaf (p : Nat)
  | newSet (a : Nat) (hs kept : List Nat)
  | grow (a : Nat) (prev : Option Nat) (news : List Nat)
  | same (p : Nat)
  | leavesOf (p : Nat)
  | dropSet (p : Nat)
  | useSet (p : Nat)

-- models: vital/bindings/c/track.cxx, track_set.cxx, camera.cxx, camera_map.cxx, algo_def/track_features.cxx:49-95.  Addresses of new objects
-- are the allocator's.  newSet: `hs` are the handles given, `kept` those whose pointers stay in the set (all of them for a track set, the last of
-- every frame for a camera map: C128).  grow: a set made by the library, read from a file (`prev` none) or made by an algorithm from the leaves of a
-- previous set, with new leaves that nobody else refers to.  same: an algorithm that returns the set it was given.  leavesOf: get_map.
-- useLeaf, useSet: any function that looks into the object.  Temporary pointers that begin and end within one call are left out.
def exec (m : Mem) : Op → Option Mem
  | .newLeaf a => newLeaf m a
  | .dropLeaf p => dropL m p
  | .useLeaf p => match m.leafC.cache.find? p with
    | none => some m
    | some sp => if m.lalive sp.tag = true then some m else none
  | .newSet a hs kept => match lookup m.leafC hs, lookup m.leafC kept with
    | some _, some l => (each incL m l).bind (fun m => newSet m a l)
    | _, _ => some m
  | .grow a none news => newSet (allocLs m news) a (List.range' m.nl news.length)
  | .grow a (some p) news => match m.setC.cache.find? p with
    | none => some m
    | some sp => if m.salive sp.tag = true then
        (each incL m (m.members sp.tag)).bind (fun m' => newSet (allocLs m' news) a (m.members sp.tag ++ List.range' m.nl news.length))
      else none
  | .same p => match m.setC.cache.find? p with
    | none => some m
    | some sp => storeS m sp.tag
  | .leavesOf p => match m.setC.cache.find? p with
    | none => some m
    | some sp => if m.salive sp.tag = true then each storeL m (m.members sp.tag) else none
  | .dropSet p => dropS m p
  | .useSet p => match m.setC.cache.find? p with
    | none => some m
    | some sp => if m.salive sp.tag = true then some m else none

def run : Mem → List Op → Option Mem
  | m, [] => some m
  | m, o :: l => (exec m o).bind (fun m => run m l)

/-! ### Specification: handles given out and not yet destroyed -/

/-- Every object made so far: its address, how many handles to it the program holds, and the leaves in a set. -/
structure Own where
  nl : Nat
  la : Nat → Nat
  lr : Nat → Nat
  ns : Nat
  sa : Nat → Nat
  sr : Nat → Nat
  sm : Nat → List Nat

def Own.init : Own := ⟨0, fun _ => 0, fun _ => 0, 0, fun _ => 0, fun _ => 0, fun _ => []⟩

/-- The program holds a handle `p` to leaf `i`. -/
def Own.Leaf (o : Own) (p i : Nat) : Prop := i < o.nl ∧ 0 < o.lr i ∧ o.la i = p

/-- The program holds a handle `p` to set `s`. -/
def Own.Set (o : Own) (p s : Nat) : Prop := s < o.ns ∧ 0 < o.sr s ∧ o.sa s = p

/-- A leaf is needed: the program holds a handle to it, or to a set that has it. -/
def Own.Needed (o : Own) (i : Nat) : Prop := 0 < o.lr i ∨ ∃ s, 0 < o.sr s ∧ i ∈ o.sm s

/-- Addresses the allocator may give to new leaves: different, not null, none of an object that is needed. -/
def Own.FreeL (o : Own) (l : List Nat) : Prop := l.Nodup ∧ ∀ a ∈ l, a ≠ 0 ∧ ∀ i, i < o.nl → o.Needed i → o.la i ≠ a

def Own.FreeS (o : Own) (a : Nat) : Prop := a ≠ 0 ∧ ∀ s, s < o.ns → 0 < o.sr s → o.sa s ≠ a

/-- One more handle to every leaf of a list. -/
def Own.handOut (o : Own) (l : List Nat) : Own := { o with lr := fun i => o.lr i + l.count i }

/-- New leaves without handles. -/
def Own.addLeaves (o : Own) (l : List Nat) : Own :=
  { o with nl := o.nl + l.length, la := fun i => if o.nl ≤ i then l.getD (i - o.nl) 0 else o.la i }

/-- A new set, one handle to it. -/
def Own.addSet (o : Own) (a : Nat) (l : List Nat) : Own :=
  { o with ns := o.ns + 1, sa := upd o.sa o.ns a, sr := upd o.sr o.ns 1, sm := upd o.sm o.ns l }

inductive Step : Own → Op → Own → Prop where
  | newLeaf {o : Own} {a : Nat} : o.FreeL [a] → Step o (.newLeaf a) ((o.addLeaves [a]).handOut [o.nl])
  | dropLeaf {o : Own} {p i : Nat} : o.Leaf p i → Step o (.dropLeaf p) { o with lr := upd o.lr i (o.lr i - 1) }
  | dropNoLeaf {o : Own} {p : Nat} : (∀ i, ¬ o.Leaf p i) → Step o (.dropLeaf p) o
  | useLeaf {o : Own} {p : Nat} : Step o (.useLeaf p) o
  | newSet {o : Own} {a : Nat} {hs kept l : List Nat} : o.FreeS a → (∀ p ∈ hs, ∃ i, o.Leaf p i) → kept ⊆ hs → l.length = kept.length →
      (∀ (k p i : Nat), kept[k]? = some p → l[k]? = some i → o.Leaf p i) → Step o (.newSet a hs kept) (o.addSet a l)
  | newSetDead {o : Own} {a : Nat} {hs kept : List Nat} : (∃ p ∈ hs, ∀ i, ¬ o.Leaf p i) → Step o (.newSet a hs kept) o
  | grow {o : Own} {a : Nat} {news : List Nat} : o.FreeS a → o.FreeL news →
      Step o (.grow a none news) ((o.addLeaves news).addSet a (List.range' o.nl news.length))
  | growFrom {o : Own} {a p s : Nat} {news : List Nat} : o.FreeS a → o.FreeL news → o.Set p s →
      Step o (.grow a (some p) news) ((o.addLeaves news).addSet a (o.sm s ++ List.range' o.nl news.length))
  | growDead {o : Own} {a p : Nat} {news : List Nat} : (∀ s, ¬ o.Set p s) → Step o (.grow a (some p) news) o
  | same {o : Own} {p s : Nat} : o.Set p s → Step o (.same p) { o with sr := upd o.sr s (o.sr s + 1) }
  | sameDead {o : Own} {p : Nat} : (∀ s, ¬ o.Set p s) → Step o (.same p) o
  | leavesOf {o : Own} {p s : Nat} : o.Set p s → Step o (.leavesOf p) (o.handOut (o.sm s))
  | leavesOfDead {o : Own} {p : Nat} : (∀ s, ¬ o.Set p s) → Step o (.leavesOf p) o
  | dropSet {o : Own} {p s : Nat} : o.Set p s → Step o (.dropSet p) { o with sr := upd o.sr s (o.sr s - 1) }
  | dropNoSet {o : Own} {p : Nat} : (∀ s, ¬ o.Set p s) → Step o (.dropSet p) o
  | useSet {o : Own} {p : Nat} : Step o (.useSet p) o

inductive Steps : Own → List Op → Own → Prop where
  | nil {o : Own} : Steps o [] o
  | cons {o o' o'' : Own} {a : Op} {l : List Op} : Step o a o' → Steps o' l o'' → Steps o (a :: l) o''

end Vital.CApi.Life
