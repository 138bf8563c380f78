import Verif.CApi.Utils
import Verif.Types.Image
/-
  Model of the C interface to images and image containers: vital/bindings/c/image.cxx, image_container.cxx,
  algo_def/convert_image.cxx, over vital/types/image.{h,cxx} and image_container.h; property C143.

  Image handles are pointers from `new` and are deleted by the caller; container handles are kept in a
  SharedPointerCache.  Both share pixel memory by `std::shared_ptr`, whose use counts are explicit here: a buffer is
  released when its count becomes 0 (its size becomes 0, so that every later access is undefined behaviour).
  Every new object gets the address `a` chosen by the allocator.  Error handles are left out (C48); image_new_from_data is C127.
-/
namespace Vital.CApi.Imgs
open Vital Vital.CApi Vital.Image

abbrev Byte := UInt8

/-- What a `convert_image` implementation returns: an exception or a null pointer, the container it was given, a new
    container with its own pixels, or a new container on a window into the given pixels. -/
inductive Conv where
  | nothing
  | same
  | fresh (w h d : Nat) (il : Bool) (u : Int → Byte)
  | window (off : Int) (w h d : Nat) (ws hs ds : Int)

/-- The C calls; `write` is the C program's own assignment through first_pixel and the steps. -/
inductive Call where
  | new
  | newDim (w h d : Nat) (il : Bool) (u : Int → Byte)
  | newFrom (p : Nat)
  | destroy (p : Nat)
  | get2 (p i j : Nat)
  | get3 (p i j k : Nat)
  | size (p : Nat)
  | width (p : Nat)
  | height (p : Nat)
  | depth (p : Nat)
  | wStep (p : Nat)
  | hStep (p : Nat)
  | dStep (p : Nat)
  | write (p i j k : Nat) (v : Byte)
  | cNew (p : Nat)
  | cDestroy (c : Nat)
  | cSize (c : Nat)
  | cWidth (c : Nat)
  | cHeight (c : Nat)
  | cDepth (c : Nat)
  | cImage (c : Nat)
  | convert (c : Nat) (r : Conv)

inductive Res where
  | void
  | handle (a : Nat)
  | num (n : Nat)
deriving DecidableEq

/-! ### The code -/

structure St where
  mem : Mem Byte
  /-- use counts of the pixel buffers -/
  cnt : Nat → Nat
  /-- images made by `new` and not deleted -/
  imgs : Nat → Option Img
  /-- container objects in existence -/
  cons : Nat → Option Img
  /-- IMGC_SPTR_CACHE -/
  cache : Cache

def St.init : St := ⟨⟨1, fun _ => 0, fun _ _ => 0⟩, fun _ => 0, fun _ => none, fun _ => none, CApi.empty⟩

def put {α : Type} (f : Nat → α) (a : Nat) (v : α) : Nat → α := fun x => if x = a then v else f x

-- models: copying a `std::shared_ptr` to pixel memory (the copy of an image, vital/types/image.cxx:189-199)
def retain (s : St) (g : Img) : St :=
  match g.data with
  | none => s
  | some b => { s with cnt := put s.cnt b (s.cnt b + 1) }

-- models: the destructor of an image's `data_`, vital/types/image.cxx:83-88 (the last owner deletes the bytes)
def release (s : St) (g : Img) : St :=
  match g.data with
  | none => s
  | some b => { s with cnt := put s.cnt b (s.cnt b - 1), mem := if s.cnt b - 1 = 0 then { s.mem with size := put s.mem.size b 0 } else s.mem }

/-- A use of the image at `p`; `none`: NULL or deleted, undefined behaviour. -/
def St.useImg (s : St) (p : Nat) (f : Img → Option (St × Res)) : Option (St × Res) := if p = 0 then none else (s.imgs p).bind f

/-- A checked access that throws is caught and reported as 0 (STANDARD_CATCH with a null error handle). -/
def readRes (s : St) : Access Byte → Option (St × Res)
  | .outOfRange => some (s, .num 0)
  | .undef => none
  | .ok v => some (s, .num v.toNat)

-- models: vital/types/image.cxx:222-231 (size)
def imgSize (s : St) (g : Img) : Nat := match g.data with
  | none => 0
  | some b => s.mem.size b

/-- `size_t` from `ptrdiff_t`. -/
def toSize (x : Int) : Nat := (x % (2 : Int) ^ 64).toNat

/-- A use of container handle `c`: dead handles throw, which is reported as 0 / NULL. -/
def St.useCon (s : St) (c : Nat) (dflt : Res) (f : Img → Option (St × Res)) : Option (St × Res) :=
  match get s.cache c with
  | .error _ => some (s, dflt)
  | .ok sp => (s.cons sp.ptr).bind f

-- models: `image_container_sptr sp( new simple_image_container( g ) ); IMGC_SPTR_CACHE.store( sp );` where `g` was already retained
def storeNew (s : St) (a : Nat) (g : Img) : Option (St × Res) :=
  match store s.cache ⟨a, 0⟩ with
  | (c, .ok ()) => some ({ s with cons := put s.cons a (some g), cache := c }, .handle a)
  | (c, .error _) => some (release { s with cache := c } g, .handle 0)

-- models: vital/bindings/c/image_container.cxx:102-115 (destroy): when the cache drops its pointer the container is deleted
def conDestroy (s : St) (c : Nat) : St :=
  let cache' := (erase s.cache c).1
  let s' := { s with cache := cache' }
  match s.cache.cache.find? c, cache'.cache.find? c with
  | some sp, none => match s.cons sp.ptr with
    | some g => release { s' with cons := put s.cons sp.ptr none } g
    | none => s'
  | _, _ => s'

-- models: vital/bindings/c/image.cxx:43-50 (new), 54-63 (new_with_dim), 101-110 (new_from_image), 114-120 (destroy), 123-141 (get_pixel),
-- 146-169 (accessors); vital/bindings/c/image_container.cxx:84-98 (new_simple), 119-158 (size, width, height, depth), 162-173 (get_image);
-- vital/bindings/c/algo_def/convert_image.cxx:45-59 (convert)
def exec (s : St) (a : Nat) : Call → Option (St × Res)
  | .new => some ({ s with imgs := put s.imgs a (some mkNull) }, .handle a)
  | .newDim w h d il u =>
    let (m, g) := mkImage s.mem u w h d il
    some ({ s with mem := m, cnt := put s.cnt g.fp.1 1, imgs := put s.imgs a (some g) }, .handle a)
  | .newFrom p => s.useImg p fun g => some ({ retain s g with imgs := put s.imgs a (some (share g)) }, .handle a)
  | .destroy p => if p = 0 then some (s, .void) else s.useImg p fun g => some (release { s with imgs := put s.imgs p none } g, .void)
  | .get2 p i j => s.useImg p fun g => readRes s (get2 s.mem g i j)
  | .get3 p i j k => s.useImg p fun g => readRes s (get3 s.mem g i j k)
  | .size p => s.useImg p fun g => some (s, .num (imgSize s g))
  | .width p => s.useImg p fun g => some (s, .num g.w)
  | .height p => s.useImg p fun g => some (s, .num g.h)
  | .depth p => s.useImg p fun g => some (s, .num g.d)
  | .wStep p => s.useImg p fun g => some (s, .num (toSize g.ws))
  | .hStep p => s.useImg p fun g => some (s, .num (toSize g.hs))
  | .dStep p => s.useImg p fun g => some (s, .num (toSize g.ds))
  | .write p i j k v => s.useImg p fun g => (Image.store s.mem (addr g i j k) v).map fun m => ({ s with mem := m }, .void)
  | .cNew p => s.useImg p fun g => storeNew (retain s g) a (share g)
  | .cDestroy c => some (conDestroy s c, .void)
  | .cSize c => s.useCon c (.num 0) fun g => some (s, .num (imgSize s g))
  | .cWidth c => s.useCon c (.num 0) fun g => some (s, .num g.w)
  | .cHeight c => s.useCon c (.num 0) fun g => some (s, .num g.h)
  | .cDepth c => s.useCon c (.num 0) fun g => some (s, .num g.d)
  | .cImage c => s.useCon c (.handle 0) fun g => some ({ retain s g with imgs := put s.imgs a (some (share g)) }, .handle a)
  | .convert c r => s.useCon c (.handle 0) fun g =>
    match r with
    | .nothing => some (s, .handle 0)
    | .same => match store s.cache ⟨c, 0⟩ with
      | (ca, .ok ()) => some ({ s with cache := ca }, .handle c)
      | (ca, .error _) => some ({ s with cache := ca }, .handle 0)
    | .fresh w h d il u =>
      let (m, g') := mkImage s.mem u w h d il
      storeNew { s with mem := m, cnt := put s.cnt g'.fp.1 1 } a g'
    | .window off w h d ws hs ds => storeNew (retain s g) a (mkView g.data (g.fp.1, g.fp.2 + off) w h d ws hs ds)

def execAll (s : St) : List (Nat × Call) → Option (St × List Res)
  | [] => some (s, [])
  | (a, c) :: l => (exec s a c).bind fun (s', r) => (execAll s' l).map fun (s'', rs) => (s'', r :: rs)

/-! ### Specification: images are views of numbered pixel buffers that never go away -/

structure Prog where
  /-- the views behind image handles and container handles -/
  img : Nat → Option Img
  con : Nat → Option Img
  /-- how often a container handle was handed out and not destroyed -/
  refs : Nat → Nat
  /-- pixel buffers -/
  next : Nat
  len : Nat → Nat
  px : Nat → Int → Byte

def Prog.init : Prog := ⟨fun _ => none, fun _ => none, fun _ => 0, 1, fun _ => 0, fun _ _ => 0⟩

/-- The fresh view of a `w` x `h` image with `d` channels on buffer `b`, planes one after another or interleaved. -/
def freshView (b w h d : Nat) (il : Bool) : Img :=
  if il then ⟨some b, (b, 0), w, h, d, d, (d * w : Nat), 1⟩ else ⟨some b, (b, 0), w, h, d, 1, w, (w * h : Nat)⟩

def Prog.buffer (p : Prog) (n : Nat) (u : Int → Byte) : Prog := { p with next := p.next + 1, len := put p.len p.next n, px := put p.px p.next u }

def Prog.readAt (p : Prog) (g : Img) (i j k : Nat) : Res := if i < g.w ∧ j < g.h ∧ k < g.d then .num (p.px (addr g i j k).1 (addr g i j k).2).toNat else .num 0

def Prog.bytes (p : Prog) (g : Img) : Nat := match g.data with
  | none => 0
  | some b => p.len b

def Prog.addImg (p : Prog) (a : Nat) (g : Img) : Prog × Res := ({ p with img := put p.img a (some g) }, .handle a)
def Prog.addCon (p : Prog) (a : Nat) (g : Img) : Prog × Res := ({ p with con := put p.con a (some g), refs := put p.refs a 1 }, .handle a)

def ofImg (p : Prog) (q : Nat) (f : Img → Res) : Prog × Res := (p, match p.img q with | some g => f g | none => .void)
def ofCon (p : Prog) (c : Nat) (f : Img → Nat) : Prog × Res := (p, .num (match p.con c with | some g => f g | none => 0))

/-- What each call should do. -/
def spec (p : Prog) (a : Nat) : Call → Prog × Res
  | .new => p.addImg a mkNull
  | .newDim w h d il u => (p.buffer (w * h * d) u).addImg a (freshView p.next w h d il)
  | .newFrom q => match p.img q with
    | some g => p.addImg a g
    | none => (p, .void)
  | .destroy q => ({ p with img := put p.img q none }, .void)
  | .get2 q i j => ofImg p q fun g => p.readAt g i j 0
  | .get3 q i j k => ofImg p q fun g => p.readAt g i j k
  | .size q => ofImg p q fun g => .num (p.bytes g)
  | .width q => ofImg p q fun g => .num g.w
  | .height q => ofImg p q fun g => .num g.h
  | .depth q => ofImg p q fun g => .num g.d
  | .wStep q => ofImg p q fun g => .num (toSize g.ws)
  | .hStep q => ofImg p q fun g => .num (toSize g.hs)
  | .dStep q => ofImg p q fun g => .num (toSize g.ds)
  | .write q i j k v => match p.img q with
    | some g => ({ p with px := fun b o => if b = (addr g i j k).1 ∧ o = (addr g i j k).2 then v else p.px b o }, .void)
    | none => (p, .void)
  | .cNew q => match p.img q with
    | some g => p.addCon a g
    | none => (p, .void)
  | .cDestroy c => (if p.refs c = 1 then { p with con := put p.con c none, refs := put p.refs c 0 } else { p with refs := put p.refs c (p.refs c - 1) }, .void)
  | .cSize c => ofCon p c fun g => p.bytes g
  | .cWidth c => ofCon p c fun g => g.w
  | .cHeight c => ofCon p c fun g => g.h
  | .cDepth c => ofCon p c fun g => g.d
  | .cImage c => match p.con c with
    | some g => p.addImg a g
    | none => (p, .handle 0)
  | .convert c r => match p.con c, r with
    | none, _ => (p, .handle 0)
    | some _, .nothing => (p, .handle 0)
    | some _, .same => ({ p with refs := put p.refs c (p.refs c + 1) }, .handle c)
    | some _, .fresh w h d il u => (p.buffer (w * h * d) u).addCon a (freshView p.next w h d il)
    | some g, .window off w h d ws hs ds => p.addCon a ⟨g.data, (g.fp.1, g.fp.2 + off), w, h, d, ws, hs, ds⟩

def specAll (p : Prog) : List (Nat × Call) → Prog × List Res
  | [] => (p, [])
  | (a, c) :: l => let (p', r) := spec p a c
    let (p'', rs) := specAll p' l
    (p'', r :: rs)

/-- All pixels of the view lie inside its buffer. -/
def Prog.Inside (p : Prog) (g : Img) : Prop := ∀ i j k, IsPixel g i j k → 0 ≤ (addr g i j k).2 ∧ (addr g i j k).2 < p.len (addr g i j k).1

/-- The image pointer is one that the program got and did not destroy. -/
def Prog.Has (p : Prog) (q : Nat) (P : Img → Prop) : Prop := ∃ g, p.img q = some g ∧ P g

/-- The promises of the caller, by call. -/
def CallerOk (p : Prog) : Call → Prop
  | .new => True
  | .newDim w h d _ _ => w * h * d < sizeMod
  | .newFrom q | .size q | .width q | .height q | .depth q | .wStep q | .hStep q | .dStep q | .cNew q | .get3 q _ _ _ => p.Has q fun _ => True
  | .destroy q => q = 0 ∨ p.Has q fun _ => True
  | .get2 q i j => p.Has q fun g => i < g.w → j < g.h → 0 < g.d
  | .write q i j k _ => p.Has q fun g => IsPixel g i j k
  | .cDestroy _ | .cSize _ | .cWidth _ | .cHeight _ | .cDepth _ | .cImage _ => True
  | .convert _ (.fresh w h d _ _) => w * h * d < sizeMod
  | .convert c (.window off w h d ws hs ds) => ∀ g, p.con c = some g → p.Inside ⟨g.data, (g.fp.1, g.fp.2 + off), w, h, d, ws, hs, ds⟩ ∧ (g.data = none → w * h * d = 0)
  | .convert _ _ => True

/-- The allocator may return any address except NULL and those of live images and containers. -/
def Legal (p : Prog) (a : Nat) : Prop := a ≠ 0 ∧ p.img a = none ∧ p.con a = none

def LegalRun : Prog → List (Nat × Call) → Prop
  | _, [] => True
  | p, (a, c) :: l => Legal p a ∧ CallerOk p c ∧ LegalRun (spec p a c).1 l

/-- Some handle views buffer `b`. -/
def Prog.Viewed (p : Prog) (b : Nat) : Prop := (∃ q g, p.img q = some g ∧ g.data = some b) ∨ (∃ c g, p.con c = some g ∧ g.data = some b)

end Vital.CApi.Imgs
