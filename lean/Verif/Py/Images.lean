import Verif.CApi.ImageHandlesProps
/-
  The Python classes Image and ImageContainer (vital/bindings/python/vital/image.py, image_container.py) over the C interface of
  Verif.CApi.ImageHandles; property C284.

  The n-th Python object is the n-th object that a statement makes.  Bytes are read and written through first_pixel_address() and the steps.
  Objects that fail to be made from arguments of another class are left out (their `__del__` reports an error, see C277).
-/
namespace Vital.Py.Pics
open Vital Vital.CApi Vital.CApi.Imgs Vital.Image

inductive Kind where
  | image | container
  deriving DecidableEq

/-- The address of the C++ object made for each Python object, and what is in the memory of its pixels. -/
structure Env where
  addr : Nat → Nat
  junk : Nat → Int → Byte

inductive Op where
  /-- `Image()` -/
  | new
  /-- `Image(w, h, d, interleave)` -/
  | newDim (w h d : Nat) (il : Bool)
  /-- `Image.from_image(x)` -/
  | fromImage (x : Nat)
  /-- `ImageContainer(x)` -/
  | newContainer (x : Nat)
  /-- `x.get_image()` -/
  | getImage (x : Nat)
  | size (x : Nat)
  | width (x : Nat)
  | height (x : Nat)
  | depth (x : Nat)
  | wStep (x : Nat)
  | hStep (x : Nat)
  | dStep (x : Nat)
  /-- the byte at first_pixel_address() + i * w_step() + j * h_step() + k * d_step() -/
  | pixel (x i j k : Nat)
  | write (x i j k : Nat) (v : Byte)
  /-- the last reference goes away -/
  | collect (x : Nat)

inductive Val where
  | none
  | obj (x : Nat)
  | int (n : Int)
  /-- TypeError, AttributeError, NameError, ctypes.ArgumentError -/
  | argument
  /-- RuntimeError of a constructor -/
  | runtime
  deriving DecidableEq

/-! ### The code -/

structure St where
  c : Imgs.St
  /-- class and pointer of each Python object, `none` once it is collected -/
  objs : List (Option (Kind × Nat))

def St.init : St := ⟨Imgs.St.init, []⟩

/-- A C int, which ctypes takes for the result of a function without restype. -/
-- models: vital/bindings/python/vital/image.py:140-156, 171-187
def cInt (n : Nat) : Int := ((n : Int) + 2 ^ 31) % 2 ^ 32 - 2 ^ 31

def num : Res → Val
  | .num n => .int n
  | _ => .none

def numInt : Res → Val
  | .num n => .int (cInt n)
  | _ => .none

/-- A C call that makes no object; `none` is undefined behaviour. -/
def call (s : St) (c : Call) (f : Res → Val) : St × Option Val :=
  match exec s.c 0 c with
  | none => (s, none)
  | some (c', r) => (⟨c', s.objs⟩, some (f r))

/-- A C call that makes an object. -/
def make (e : Env) (s : St) (k : Kind) (c : Call) : St × Option Val :=
  match exec s.c (e.addr s.objs.length) c with
  | some (c', .handle p) => if p = 0 then (⟨c', s.objs⟩, some .runtime) else (⟨c', s.objs ++ [some (k, p)]⟩, some (.obj s.objs.length))
  | _ => (s, none)

def St.obj (s : St) (x : Nat) : Option (Kind × Nat) := (s.objs[x]?).getD none

/-- Where Python finds a byte. -/
-- models: vital/bindings/python/vital/image.py:163-187 (first_pixel_address and the steps, which are C ints)
def pyAddr (g : Img) (i j k : Nat) : Ptr := (g.fp.1, g.fp.2 + (cInt (toSize g.ws) * i + cInt (toSize g.hs) * j + cInt (toSize g.ds) * k))

-- models: vital/bindings/python/vital/image.py:46-62 (from_image), 104-131 (__init__, _destroy), 133-187 (accessors);
-- vital/bindings/python/vital/image_container.py:51-74 (__init__, _destroy), 76-134; VitalObject.py:64-113, 153-155 (from_c_pointer, __del__)
def step (e : Env) (s : St) : Op → St × Option Val
  | .new => make e s .image .new
  | .newDim w h d il => make e s .image (.newDim w h d il (e.junk s.objs.length))
  | .fromImage x => match s.obj x with
    | some (.image, p) => make e s .image (.newFrom p)
    | _ => (s, some .argument)
  | .newContainer x => match s.obj x with
    | some (.image, p) => make e s .container (.cNew p)
    | _ => (s, some .argument)
  | .getImage x => match s.obj x with
    | some (.container, p) => make e s .image (.cImage p)
    | _ => (s, some .argument)
  | .size x => match s.obj x with
    | some (.image, p) => call s (.size p) num
    | some (.container, p) => call s (.cSize p) num
    | none => (s, some .argument)
  | .width x => match s.obj x with
    | some (.image, p) => call s (.width p) numInt
    | some (.container, p) => call s (.cWidth p) num
    | none => (s, some .argument)
  | .height x => match s.obj x with
    | some (.image, p) => call s (.height p) numInt
    | some (.container, p) => call s (.cHeight p) num
    | none => (s, some .argument)
  | .depth x => match s.obj x with
    | some (.image, p) => call s (.depth p) numInt
    | some (.container, p) => call s (.cDepth p) num
    | none => (s, some .argument)
  | .wStep x => match s.obj x with
    | some (.image, p) => call s (.wStep p) numInt
    | _ => (s, some .argument)
  | .hStep x => match s.obj x with
    | some (.image, p) => call s (.hStep p) numInt
    | _ => (s, some .argument)
  | .dStep x => match s.obj x with
    | some (.image, p) => call s (.dStep p) numInt
    | _ => (s, some .argument)
  | .pixel x i j k => match s.obj x with
    | some (.image, p) => match s.c.useImg p fun g => (load s.c.mem (pyAddr g i j k)).map fun v => (s.c, .num v.toNat) with
      | none => (s, none)
      | some (c', r) => (⟨c', s.objs⟩, some (num r))
    | _ => (s, some .argument)
  | .write x i j k v => match s.obj x with
    | some (.image, p) => match s.c.useImg p fun g => (Image.store s.c.mem (pyAddr g i j k) v).map fun m => ({ s.c with mem := m }, .void) with
      | none => (s, none)
      | some (c', r) => (⟨c', s.objs⟩, some (num r))
    | _ => (s, some .argument)
  | .collect x => match s.obj x with
    | some (.image, p) => let r := call s (.destroy p) num; (⟨r.1.c, s.objs.set x none⟩, r.2)
    | some (.container, p) => let r := call s (.cDestroy p) num; (⟨r.1.c, s.objs.set x none⟩, r.2)
    | none => (s, some .argument)

def run (e : Env) (s : St) : List Op → St × List (Option Val)
  | [] => (s, [])
  | op :: ops => ((run e (step e s op).1 ops).1, (step e s op).2 :: (run e (step e s op).1 ops).2)

/-! ### Specification: objects are references to pictures -/

structure Pic where
  w : Nat
  h : Nat
  d : Nat
  /-- the distances of neighbours, in bytes -/
  ws : Nat
  hs : Nat
  ds : Nat
  px : Nat → Nat → Nat → Byte

structure Sp where
  /-- the picture made by each object -/
  pics : Nat → Pic
  /-- class and picture of each object -/
  objs : List (Option (Kind × Nat))

def Sp.init : Sp := ⟨fun _ => ⟨0, 0, 0, 0, 0, 0, fun _ _ _ => 0⟩, []⟩

def Sp.obj (a : Sp) (x : Nat) : Option (Kind × Nat) := (a.objs[x]?).getD none

/-- A new object with a picture of its own. -/
def Sp.fresh (a : Sp) (p : Pic) : Sp × Val :=
  (⟨fun n => if n = a.objs.length then p else a.pics n, a.objs ++ [some (.image, a.objs.length)]⟩, .obj a.objs.length)

/-- A new object on the picture of an object of class `k`. -/
def Sp.on (a : Sp) (k : Kind) (x : Nat) (k' : Kind) : Sp × Val :=
  match a.obj x with
  | some (k0, n) => if k0 = k then (⟨a.pics, a.objs ++ [some (k', n)]⟩, .obj a.objs.length) else (a, .argument)
  | none => (a, .argument)

/-- A number that an object of class `k` (or any class) tells about its picture. -/
def Sp.tell (a : Sp) (k : Option Kind) (x : Nat) (f : Pic → Nat) : Sp × Val :=
  match a.obj x with
  | some (k0, n) => if k = none ∨ k = some k0 then (a, .int (f (a.pics n))) else (a, .argument)
  | none => (a, .argument)

def spec (e : Env) (a : Sp) : Op → Sp × Val
  | .new => a.fresh ⟨0, 0, 0, 0, 0, 0, fun _ _ _ => 0⟩
  | .newDim w h d true => a.fresh ⟨w, h, d, d, d * w, 1, fun i j k => e.junk a.objs.length (d * i + d * w * j + k)⟩
  | .newDim w h d false => a.fresh ⟨w, h, d, 1, w, w * h, fun i j k => e.junk a.objs.length (i + w * j + w * h * k)⟩
  | .fromImage x => a.on .image x .image
  | .newContainer x => a.on .image x .container
  | .getImage x => a.on .container x .image
  | .size x => a.tell none x fun p => p.w * p.h * p.d
  | .width x => a.tell none x (·.w)
  | .height x => a.tell none x (·.h)
  | .depth x => a.tell none x (·.d)
  | .wStep x => a.tell (some .image) x (·.ws)
  | .hStep x => a.tell (some .image) x (·.hs)
  | .dStep x => a.tell (some .image) x (·.ds)
  | .pixel x i j k => a.tell (some .image) x fun p => (p.px i j k).toNat
  | .write x i j k v => match a.obj x with
    | some (.image, n) => (⟨fun m => if m = n then { a.pics n with px := fun i' j' k' => if i' = i ∧ j' = j ∧ k' = k then v else (a.pics n).px i' j' k' } else a.pics m, a.objs⟩, .none)
    | _ => (a, .argument)
  | .collect x => match a.obj x with
    | some _ => (⟨a.pics, a.objs.set x none⟩, .none)
    | none => (a, .argument)

def specRun (e : Env) (a : Sp) : List Op → Sp × List Val
  | [] => (a, [])
  | op :: ops => ((specRun e (spec e a op).1 ops).1, (spec e a op).2 :: (specRun e (spec e a op).1 ops).2)

/-- The allocator gives the next object an address that no living one has. -/
def Fresh (e : Env) (a : Sp) : Prop := e.addr a.objs.length ≠ 0 ∧ ∀ y, (a.obj y).isSome → e.addr y ≠ e.addr a.objs.length

/-- The picture has a byte there. -/
def Sp.Has (a : Sp) (x i j k : Nat) : Prop := ∀ c n, a.obj x = some (c, n) → i < (a.pics n).w ∧ j < (a.pics n).h ∧ k < (a.pics n).d

/-- Images fit in the address space, and bytes are read and written inside of pictures only. -/
def Legal (e : Env) (a : Sp) : Op → Prop
  | .newDim w h d _ => Fresh e a ∧ w * h * d < 2 ^ 64
  | .new | .fromImage _ | .newContainer _ | .getImage _ => Fresh e a
  | .pixel x i j k | .write x i j k _ => a.Has x i j k
  | _ => True

def LegalRun (e : Env) : Sp → List Op → Prop
  | _, [] => True
  | a, op :: ops => Legal e a op ∧ LegalRun e (spec e a op).1 ops

/-- No step and no number of pixels is above the C ints. -/
def Small : Op → Prop
  | .newDim w h d _ => w < 2 ^ 31 ∧ h < 2 ^ 31 ∧ d < 2 ^ 31 ∧ w * h < 2 ^ 31 ∧ d * w < 2 ^ 31
  | _ => True

/-- Full property C284: Python images and containers are references to pictures: nothing is undefined behaviour and each statement has the value it should have. -/
def C284_statement : Prop := ∀ (e : Env) (ops : List Op), LegalRun e Sp.init ops → (run e St.init ops).2 = (specRun e Sp.init ops).2.map some

/-! ### Proofs -/

/-- `v` is how the C side sees the picture. -/
structure View (p : Prog) (v : Img) (q : Pic) : Prop where
  dims : v.w = q.w ∧ v.h = q.h ∧ v.d = q.d
  steps : v.ws = q.ws ∧ v.hs = q.hs ∧ v.ds = q.ds
  distinct : Distinct v
  data : ∀ b, v.data = some b → v.fp.1 = b ∧ b < p.next
  nodata : v.data = none → ∀ i j k, ¬ IsPixel v i j k
  px : ∀ i j k, IsPixel v i j k → p.px (addr v i j k).1 (addr v i j k).2 = q.px i j k
  bytes : p.bytes v = q.w * q.h * q.d
  small : q.w < 2 ^ 31 ∧ q.h < 2 ^ 31 ∧ q.d < 2 ^ 31 ∧ q.ws < 2 ^ 31 ∧ q.hs < 2 ^ 31 ∧ q.ds < 2 ^ 31

/-- The state of the C side, of the objects and of the specification. -/
structure J (e : Env) (s : St) (p : Prog) (a : Sp) (v : Nat → Img) : Prop where
  r : R s.c p
  len : s.objs.length = a.objs.length
  objs : ∀ x, s.obj x = (a.obj x).map fun o => (o.1, e.addr x)
  img : ∀ x n, a.obj x = some (.image, n) → p.img (e.addr x) = some (v n)
  con : ∀ x n, a.obj x = some (.container, n) → p.con (e.addr x) = some (v n) ∧ p.refs (e.addr x) = 1
  imgBack : ∀ q g, p.img q = some g → ∃ x n, a.obj x = some (.image, n) ∧ e.addr x = q
  conBack : ∀ q g, p.con q = some g → ∃ x n, a.obj x = some (.container, n) ∧ e.addr x = q
  apart : ∀ x y, (a.obj x).isSome → (a.obj y).isSome → e.addr x = e.addr y → x = y
  view : ∀ x k n, a.obj x = some (k, n) → View p (v n) (a.pics n) ∧ n < a.objs.length
  own : ∀ x y k k' n m b, a.obj x = some (k, n) → a.obj y = some (k', m) → (v n).data = some b → (v m).data = some b → n = m

theorem j_init (e : Env) : J e St.init Prog.init Sp.init (fun _ => mkNull) := by
  have h : ∀ x, Sp.init.obj x = none := fun x => rfl
  refine ⟨r_init, rfl, fun x => rfl, ?_, ?_, ?_, ?_, ?_, ?_, ?_⟩
  · intro x n hx; rw [h] at hx; cases hx
  · intro x n hx; rw [h] at hx; cases hx
  · intro q g hq; simp [Prog.init] at hq
  · intro q g hq; simp [Prog.init] at hq
  · intro x y hx; rw [h] at hx; cases hx
  · intro x k n hx; rw [h] at hx; cases hx
  · intro x y k k' n m b hx; rw [h] at hx; cases hx

theorem cInt_small {n : Nat} (h : n < 2 ^ 31) : cInt n = n := by unfold cInt; omega

theorem step_small {n : Nat} (h : n < 2 ^ 31) : cInt (toSize (n : Int)) = n := by
  have : toSize (n : Int) = n := by unfold toSize; omega
  rw [this, cInt_small h]

theorem pyAddr_eq {p : Prog} {v : Img} {q : Pic} (h : View p v q) (i j k : Nat) : pyAddr v i j k = addr v i j k := by
  unfold pyAddr addr
  obtain ⟨h1, h2, h3⟩ := h.steps
  obtain ⟨_, _, _, s1, s2, s3⟩ := h.small
  rw [h1, h2, h3, step_small s1, step_small s2, step_small s3]

theorem obj_append {α : Type} (l : List (Option α)) (o : Option α) (x : Nat) :
    ((l ++ [o])[x]?).getD none = if x = l.length then o else (l[x]?).getD none := by
  by_cases h : x < l.length
  · rw [List.getElem?_append_left h, if_neg (by omega)]
  · by_cases e : x = l.length
    · subst e; simp
    · rw [if_neg e, List.getElem?_append_right (by omega), List.getElem?_eq_none (by simp; omega), List.getElem?_eq_none (by omega)]

theorem obj_lt {α : Type} {l : List (Option α)} {x : Nat} {y : α} (h : (l[x]?).getD none = some y) : x < l.length := by
  by_cases hx : x < l.length
  · exact hx
  · rw [List.getElem?_eq_none (by omega)] at h; cases h

theorem obj_set {α : Type} (l : List (Option α)) (x y : Nat) : ((l.set x none)[y]?).getD none = if y = x then none else (l[y]?).getD none := by
  rw [List.getElem?_set]
  by_cases h : x = y
  · subst h
    by_cases hl : x < l.length
    · simp [hl]
    · simp [hl]
  · rw [if_neg h, if_neg (fun e => h e.symm)]

theorem bound (l : List Nat) : ∃ m, ∀ x ∈ l, x < m := by
  induction l with
  | nil => exact ⟨0, by simp⟩
  | cons a l ih =>
    obtain ⟨m, h⟩ := ih
    refine ⟨max m (a + 1), ?_⟩
    intro x hx
    rcases List.mem_cons.1 hx with rfl | hx
    · omega
    · have := h x hx; omega

/-- There is always an address left. -/
theorem some_address {e : Env} {s : St} {p : Prog} {a : Sp} {v : Nat → Img} (h : J e s p a v) : ∃ q, Imgs.Legal p q := by
  obtain ⟨m, hm⟩ := bound ((List.range a.objs.length).map e.addr)
  have hb : ∀ x k n, a.obj x = some (k, n) → e.addr x < m := by
    intro x k n hx
    exact hm _ (List.mem_map.2 ⟨x, List.mem_range.2 (obj_lt hx), rfl⟩)
  refine ⟨m + 1, by omega, ?_, ?_⟩
  · cases hq : p.img (m + 1) with
    | none => rfl
    | some g =>
      obtain ⟨x, n, hx, he⟩ := h.imgBack _ _ hq
      have := hb _ _ _ hx
      omega
  · cases hq : p.con (m + 1) with
    | none => rfl
    | some g =>
      obtain ⟨x, n, hx, he⟩ := h.conBack _ _ hq
      have := hb _ _ _ hx
      omega

theorem fresh_legal {e : Env} {s : St} {p : Prog} {a : Sp} {v : Nat → Img} (h : J e s p a v) (hf : Fresh e a) : Imgs.Legal p (e.addr a.objs.length) := by
  refine ⟨hf.1, ?_, ?_⟩
  · cases hq : p.img (e.addr a.objs.length) with
    | none => rfl
    | some g =>
      obtain ⟨x, n, hx, he⟩ := h.imgBack _ _ hq
      exact absurd he (hf.2 x (by rw [hx]; rfl))
  · cases hq : p.con (e.addr a.objs.length) with
    | none => rfl
    | some g =>
      obtain ⟨x, n, hx, he⟩ := h.conBack _ _ hq
      exact absurd he (hf.2 x (by rw [hx]; rfl))

/-- Views and their bytes stay when buffers are added. -/
theorem view_later {p p' : Prog} {v : Img} {q : Pic} (h : View p v q) (hn : p.next ≤ p'.next) (hx : ∀ b, b < p.next → p'.px b = p.px b ∧ p'.len b = p.len b) : View p' v q := by
  refine ⟨h.dims, h.steps, h.distinct, fun b hb => ⟨(h.data b hb).1, Nat.lt_of_lt_of_le (h.data b hb).2 hn⟩, h.nodata, ?_, ?_, h.small⟩
  · intro i j k hp
    cases hd : v.data with
    | none => exact absurd hp (h.nodata hd i j k)
    | some b =>
      have := h.data b hd
      have ha : (addr v i j k).1 < p.next := by show v.fp.1 < _; omega
      rw [(hx _ ha).1]
      exact h.px i j k hp
  · have hb := h.bytes
    unfold Prog.bytes at hb ⊢
    cases hd : v.data with
    | none => rw [hd] at hb; exact hb
    | some b =>
      rw [hd] at hb
      simp only at hb ⊢
      rw [(hx b (h.data b hd).2).2]
      exact hb

/-- A new image object on view `g`. -/
theorem j_addImg {e : Env} {s : St} {p p' : Prog} {a : Sp} {v v' : Nat → Img} {c' : Imgs.St} {pics' : Nat → Pic} {n : Nat} (h : J e s p a v) (hf : Fresh e a)
    (hr : R c' p') (hi : p'.img = put p.img (e.addr a.objs.length) (some (v' n))) (hc : p'.con = p.con) (hre : p'.refs = p.refs)
    (hn : n ≤ a.objs.length) (hold : ∀ m, m < a.objs.length → v' m = v m)
    (hview : ∀ x k m, a.obj x = some (k, m) → View p' (v' m) (pics' m)) (hnew : View p' (v' n) (pics' n))
    (hown : ∀ x k m b, a.obj x = some (k, m) → (v' m).data = some b → (v' n).data = some b → m = n) :
    J e ⟨c', s.objs ++ [some (.image, e.addr a.objs.length)]⟩ p' ⟨pics', a.objs ++ [some (.image, n)]⟩ v' := by
  have hobj : ∀ x, Sp.obj ⟨pics', a.objs ++ [some (.image, n)]⟩ x = if x = a.objs.length then some (.image, n) else a.obj x := fun x => obj_append _ _ x
  have hold' : ∀ x k m, a.obj x = some (k, m) → v' m = v m := fun x k m hx => hold m (h.view x k m hx).2
  have hne : ∀ x k m, a.obj x = some (k, m) → e.addr x ≠ e.addr a.objs.length := fun x k m hx => hf.2 x (by rw [hx]; rfl)
  refine ⟨hr, by simp [h.len], ?_, ?_, ?_, ?_, ?_, ?_, ?_, ?_⟩
  · intro x
    rw [hobj]
    show (((s.objs ++ [_])[x]?).getD none) = _
    rw [obj_append, h.len]
    by_cases hx : x = a.objs.length
    · subst hx; rw [if_pos rfl, if_pos rfl]; rfl
    · rw [if_neg hx, if_neg hx]; exact h.objs x
  · intro x m hx
    rw [hobj] at hx
    rw [hi]
    by_cases hx' : x = a.objs.length
    · subst hx'
      rw [if_pos rfl] at hx
      cases hx
      exact put_self _ _ _
    · rw [if_neg hx'] at hx
      rw [put_ne _ _ (hne x _ _ hx), hold' _ _ _ hx]
      exact h.img x m hx
  · intro x m hx
    rw [hobj] at hx
    by_cases hx' : x = a.objs.length
    · rw [if_pos hx'] at hx; cases hx
    · rw [if_neg hx'] at hx
      rw [hc, hre, hold' _ _ _ hx]
      exact h.con x m hx
  · intro q g hq
    rw [hi] at hq
    by_cases hq' : q = e.addr a.objs.length
    · exact ⟨a.objs.length, n, by rw [hobj, if_pos rfl], hq'.symm⟩
    · rw [put_ne _ _ hq'] at hq
      obtain ⟨x, m, hx, he⟩ := h.imgBack q g hq
      exact ⟨x, m, by rw [hobj, if_neg (by have := obj_lt hx; omega)]; exact hx, he⟩
  · intro q g hq
    rw [hc] at hq
    obtain ⟨x, m, hx, he⟩ := h.conBack q g hq
    exact ⟨x, m, by rw [hobj, if_neg (by have := obj_lt hx; omega)]; exact hx, he⟩
  · intro x y hx hy he
    rw [hobj] at hx hy
    by_cases hx' : x = a.objs.length
    · by_cases hy' : y = a.objs.length
      · omega
      · rw [if_neg hy'] at hy
        subst hx'
        exact absurd he.symm (hf.2 y hy)
    · rw [if_neg hx'] at hx
      by_cases hy' : y = a.objs.length
      · subst hy'; exact absurd he (hf.2 x hx)
      · rw [if_neg hy'] at hy; exact h.apart x y hx hy he
  · intro x k m hx
    rw [hobj] at hx
    simp only [List.length_append, List.length_singleton]
    by_cases hx' : x = a.objs.length
    · rw [if_pos hx'] at hx; cases hx; exact ⟨hnew, by omega⟩
    · rw [if_neg hx'] at hx
      exact ⟨hview x k m hx, by have := (h.view x k m hx).2; omega⟩
  · intro x y k k' m m' b hx hy hb hb'
    rw [hobj] at hx hy
    by_cases hx' : x = a.objs.length
    · rw [if_pos hx'] at hx
      cases hx
      by_cases hy' : y = a.objs.length
      · rw [if_pos hy'] at hy; cases hy; rfl
      · rw [if_neg hy'] at hy
        exact (hown y k' m' b hy hb' hb).symm
    · rw [if_neg hx'] at hx
      by_cases hy' : y = a.objs.length
      · rw [if_pos hy'] at hy; cases hy
        exact hown x k m b hx hb hb'
      · rw [if_neg hy'] at hy
        rw [hold' _ _ _ hx] at hb
        rw [hold' _ _ _ hy] at hb'
        exact h.own x y k k' m m' b hx hy hb hb'

/-- A new container on the view of an object. -/
theorem j_addCon {e : Env} {s : St} {p : Prog} {a : Sp} {v : Nat → Img} {c' : Imgs.St} {n x0 : Nat} {k0 : Kind} (h : J e s p a v) (hf : Fresh e a)
    (hx0 : a.obj x0 = some (k0, n)) (hr : R c' (p.addCon (e.addr a.objs.length) (v n)).1) :
    J e ⟨c', s.objs ++ [some (.container, e.addr a.objs.length)]⟩ (p.addCon (e.addr a.objs.length) (v n)).1 ⟨a.pics, a.objs ++ [some (.container, n)]⟩ v := by
  have hobj : ∀ x, Sp.obj ⟨a.pics, a.objs ++ [some (.container, n)]⟩ x = if x = a.objs.length then some (.container, n) else a.obj x := fun x => obj_append _ _ x
  have hne : ∀ x k m, a.obj x = some (k, m) → e.addr x ≠ e.addr a.objs.length := fun x k m hx => hf.2 x (by rw [hx]; rfl)
  have hvw : ∀ {w : Img} {q : Pic}, View p w q → View (p.addCon (e.addr a.objs.length) (v n)).1 w q := fun hv => view_later hv (Nat.le_refl _) fun _ _ => ⟨rfl, rfl⟩
  refine ⟨hr, by simp [h.len], ?_, ?_, ?_, ?_, ?_, ?_, ?_, ?_⟩
  · intro x
    rw [hobj]
    show (((s.objs ++ [_])[x]?).getD none) = _
    rw [obj_append, h.len]
    by_cases hx : x = a.objs.length
    · subst hx; rw [if_pos rfl, if_pos rfl]; rfl
    · rw [if_neg hx, if_neg hx]; exact h.objs x
  · intro x m hx
    rw [hobj] at hx
    by_cases hx' : x = a.objs.length
    · rw [if_pos hx'] at hx; cases hx
    · rw [if_neg hx'] at hx; exact h.img x m hx
  · intro x m hx
    rw [hobj] at hx
    by_cases hx' : x = a.objs.length
    · subst hx'
      rw [if_pos rfl] at hx
      cases hx
      exact ⟨put_self _ _ _, put_self _ _ _⟩
    · rw [if_neg hx'] at hx
      have := h.con x m hx
      exact ⟨(put_ne _ _ (hne x _ _ hx)).trans this.1, (put_ne _ _ (hne x _ _ hx)).trans this.2⟩
  · intro q g hq
    obtain ⟨x, m, hx, he⟩ := h.imgBack q g hq
    exact ⟨x, m, by rw [hobj, if_neg (by have := obj_lt hx; omega)]; exact hx, he⟩
  · intro q g hq
    by_cases hq' : q = e.addr a.objs.length
    · exact ⟨a.objs.length, n, by rw [hobj, if_pos rfl], hq'.symm⟩
    · have hq2 : p.con q = some g := (put_ne p.con (some (v n)) hq').symm.trans hq
      obtain ⟨x, m, hx, he⟩ := h.conBack q g hq2
      exact ⟨x, m, by rw [hobj, if_neg (by have := obj_lt hx; omega)]; exact hx, he⟩
  · intro x y hx hy he
    rw [hobj] at hx hy
    by_cases hx' : x = a.objs.length
    · by_cases hy' : y = a.objs.length
      · omega
      · rw [if_neg hy'] at hy
        subst hx'
        exact absurd he.symm (hf.2 y hy)
    · rw [if_neg hx'] at hx
      by_cases hy' : y = a.objs.length
      · subst hy'; exact absurd he (hf.2 x hx)
      · rw [if_neg hy'] at hy; exact h.apart x y hx hy he
  · intro x k m hx
    rw [hobj] at hx
    simp only [List.length_append, List.length_singleton]
    by_cases hx' : x = a.objs.length
    · rw [if_pos hx'] at hx
      cases hx
      have := h.view x0 k0 n hx0
      exact ⟨hvw this.1, by omega⟩
    · rw [if_neg hx'] at hx
      have := h.view x k m hx
      exact ⟨hvw this.1, by omega⟩
  · intro x y k k' m m' b hx hy hb hb'
    have key : ∀ x k m, (if x = a.objs.length then some (Kind.container, n) else a.obj x) = some (k, m) → ∃ x' k', a.obj x' = some (k', m) := by
      intro x k m hx
      by_cases hx' : x = a.objs.length
      · rw [if_pos hx'] at hx; cases hx; exact ⟨x0, k0, hx0⟩
      · rw [if_neg hx'] at hx; exact ⟨x, k, hx⟩
    rw [hobj] at hx hy
    obtain ⟨x1, k1, h1⟩ := key _ _ _ hx
    obtain ⟨y1, k2, h2⟩ := key _ _ _ hy
    exact h.own x1 y1 k1 k2 m m' b h1 h2 hb hb'

/-- An object is collected. -/
theorem j_collect {e : Env} {s : St} {p p' : Prog} {a : Sp} {v : Nat → Img} {c' : Imgs.St} {x : Nat} {k : Kind} {n : Nat} (h : J e s p a v)
    (hx : a.obj x = some (k, n)) (hr : R c' p')
    (hi : p'.img = if k = .image then put p.img (e.addr x) none else p.img)
    (hc : p'.con = if k = .image then p.con else put p.con (e.addr x) none)
    (hre : ∀ q, (k = .container → q ≠ e.addr x) → p'.refs q = p.refs q) (hn : p'.next = p.next) (hpx : p'.px = p.px) (hl : p'.len = p.len) :
    J e ⟨c', s.objs.set x none⟩ p' ⟨a.pics, a.objs.set x none⟩ v := by
  have hobj : ∀ y, Sp.obj ⟨a.pics, a.objs.set x none⟩ y = if y = x then none else a.obj y := fun y => obj_set _ _ _
  have hsome : ∀ {y : Nat} {o : Kind × Nat}, (if y = x then none else a.obj y) = some o → y ≠ x ∧ a.obj y = some o := by
    intro y o hy
    by_cases hyx : y = x
    · rw [if_pos hyx] at hy; cases hy
    · rw [if_neg hyx] at hy; exact ⟨hyx, hy⟩
  have hne : ∀ y k' m, y ≠ x → a.obj y = some (k', m) → e.addr y ≠ e.addr x := by
    intro y k' m hyx hy he
    exact hyx (h.apart y x (by rw [hy]; rfl) (by rw [hx]; rfl) he)
  refine ⟨hr, by simp [h.len], ?_, ?_, ?_, ?_, ?_, ?_, ?_, ?_⟩
  · intro y
    rw [hobj]
    show (((s.objs.set x none)[y]?).getD none) = _
    rw [obj_set]
    by_cases hyx : y = x
    · rw [if_pos hyx, if_pos hyx]; rfl
    · rw [if_neg hyx, if_neg hyx]; exact h.objs y
  · intro y m hy
    rw [hobj] at hy
    obtain ⟨hyx, hy⟩ := hsome hy
    rw [hi]
    have := h.img y m hy
    split
    · rw [put_ne _ _ (hne y _ _ hyx hy)]; exact this
    · exact this
  · intro y m hy
    rw [hobj] at hy
    obtain ⟨hyx, hy⟩ := hsome hy
    have hh := h.con y m hy
    have hd := hne y _ _ hyx hy
    rw [hre _ fun _ => hd]
    refine ⟨?_, hh.2⟩
    rw [hc]
    split
    · exact hh.1
    · rw [put_ne _ _ hd]; exact hh.1
  · intro q g hq
    rw [hi] at hq
    have hq' : p.img q = some g ∧ (k = .image → q ≠ e.addr x) := by
      split at hq
      · by_cases hqx : q = e.addr x
        · rw [hqx, put_self] at hq; cases hq
        · rw [put_ne _ _ hqx] at hq; exact ⟨hq, fun _ => hqx⟩
      · rename_i hk; exact ⟨hq, fun hk' => absurd hk' hk⟩
    obtain ⟨y, m, hy, he⟩ := h.imgBack q g hq'.1
    refine ⟨y, m, ?_, he⟩
    rw [hobj, if_neg]
    · exact hy
    · rintro rfl
      rw [hx] at hy
      cases hy
      exact hq'.2 rfl he.symm
  · intro q g hq
    rw [hc] at hq
    have hq' : p.con q = some g ∧ (k = .container → q ≠ e.addr x) := by
      split at hq
      · rename_i hk; exact ⟨hq, fun hk' => by rw [hk] at hk'; cases hk'⟩
      · by_cases hqx : q = e.addr x
        · rw [hqx, put_self] at hq; cases hq
        · rw [put_ne _ _ hqx] at hq; exact ⟨hq, fun _ => hqx⟩
    obtain ⟨y, m, hy, he⟩ := h.conBack q g hq'.1
    refine ⟨y, m, ?_, he⟩
    rw [hobj, if_neg]
    · exact hy
    · rintro rfl
      rw [hx] at hy
      cases hy
      exact hq'.2 rfl he.symm
  · intro y z hy hz he
    rw [hobj] at hy hz
    by_cases hyx : y = x
    · rw [if_pos hyx] at hy; cases hy
    · by_cases hzx : z = x
      · rw [if_pos hzx] at hz; cases hz
      · rw [if_neg hyx] at hy; rw [if_neg hzx] at hz; exact h.apart y z hy hz he
  · intro y k' m hy
    rw [hobj] at hy
    obtain ⟨_, hy⟩ := hsome hy
    obtain ⟨h1, h2⟩ := h.view y k' m hy
    refine ⟨view_later h1 (by omega) fun b _ => by rw [hpx, hl]; exact ⟨rfl, rfl⟩, by simpa using h2⟩
  · intro y z k1 k2 m m' b hy hz
    rw [hobj] at hy hz
    exact h.own y z k1 k2 m m' b (hsome hy).2 (hsome hz).2

/-- A byte is written. -/
theorem j_write {e : Env} {s : St} {p p' : Prog} {a : Sp} {v : Nat → Img} {c' : Imgs.St} {x n i j k : Nat} {w : Byte} (h : J e s p a v)
    (hx : a.obj x = some (.image, n)) (hp : IsPixel (v n) i j k) (hr : R c' p')
    (he : p' = { p with px := fun b o => if b = (addr (v n) i j k).1 ∧ o = (addr (v n) i j k).2 then w else p.px b o }) :
    J e ⟨c', s.objs⟩ p' ⟨fun m => if m = n then { a.pics n with px := fun i' j' k' => if i' = i ∧ j' = j ∧ k' = k then w else (a.pics n).px i' j' k' } else a.pics m, a.objs⟩ v := by
  refine ⟨hr, h.len, h.objs, ?_, ?_, ?_, ?_, h.apart, ?_, h.own⟩
  · rw [he]; exact h.img
  · rw [he]; exact h.con
  · rw [he]; exact h.imgBack
  · rw [he]; exact h.conBack
  · intro y k' m hy
    obtain ⟨hv, hl⟩ := h.view y k' m hy
    refine ⟨?_, hl⟩
    have hvn := (h.view x _ n hx).1
    by_cases hm : m = n
    · subst hm
      simp only [if_true]
      refine ⟨hv.dims, hv.steps, hv.distinct, by rw [he]; exact hv.data, hv.nodata, ?_, by rw [he]; exact hv.bytes, hv.small⟩
      intro i' j' k'' hp'
      rw [he]
      simp only
      by_cases hs : i' = i ∧ j' = j ∧ k'' = k
      · obtain ⟨rfl, rfl, rfl⟩ := hs
        simp
      · rw [if_neg hs, if_neg]
        · exact hv.px _ _ _ hp'
        · intro ⟨h1, h2⟩
          exact hs (hv.distinct _ _ _ _ _ _ hp' hp (Prod.ext h1 h2))
    · simp only [if_neg hm]
      refine ⟨hv.dims, hv.steps, hv.distinct, by rw [he]; exact hv.data, hv.nodata, ?_, by rw [he]; exact hv.bytes, hv.small⟩
      intro i' j' k'' hp'
      rw [he]
      simp only
      rw [if_neg]
      · exact hv.px _ _ _ hp'
      · intro ⟨h1, _⟩
        cases hd : (v m).data with
        | none => exact hv.nodata hd _ _ _ hp'
        | some b =>
          cases hd' : (v n).data with
          | none => exact hvn.nodata hd' _ _ _ hp
          | some b' =>
            have e1 := (hv.data b hd).1
            have e2 := (hvn.data b' hd').1
            have e3 : (v m).fp.1 = (v n).fp.1 := h1
            have : b = b' := by omega
            subst this
            exact hm (h.own y x k' _ m n b hy hx hd hd')

/-! ### Statements -/

/-- A new object on a new picture. -/
theorem j_fresh {e : Env} {s : St} {p p' : Prog} {a : Sp} {v : Nat → Img} {c' : Imgs.St} {g : Img} {q : Pic} (h : J e s p a v) (hf : Fresh e a)
    (hr : R c' p') (hi : p'.img = put p.img (e.addr a.objs.length) (some g)) (hc : p'.con = p.con) (hre : p'.refs = p.refs)
    (hn : p.next ≤ p'.next) (hx : ∀ b, b < p.next → p'.px b = p.px b ∧ p'.len b = p.len b) (hg : View p' g q) (hd : ∀ b, g.data = some b → p.next ≤ b) :
    J e ⟨c', s.objs ++ [some (.image, e.addr a.objs.length)]⟩ p' (a.fresh q).1 (fun m => if m = a.objs.length then g else v m) := by
  refine j_addImg (n := a.objs.length) h hf hr (by simpa using hi) hc hre (Nat.le_refl _) (fun m hm => if_neg (by omega)) ?_ (by simpa using hg) ?_
  · intro x k m hm
    obtain ⟨h1, h2⟩ := h.view x k m hm
    rw [if_neg (by omega), if_neg (by omega)]
    exact view_later h1 hn hx
  · intro x k m b hm hb hb'
    rw [if_pos rfl] at hb'
    obtain ⟨h1, h2⟩ := h.view x k m hm
    rw [if_neg (by omega)] at hb
    have := (h1.data b hb).2
    have := hd b hb'
    omega

theorem make_spec {e : Env} {s : St} {p : Prog} {a : Sp} {v : Nat → Img} (h : J e s p a v) (hf : Fresh e a) (k : Kind) (c : Call) (hc : CallerOk p c)
    (hh : (Imgs.spec p (e.addr a.objs.length) c).2 = .handle (e.addr a.objs.length)) :
    ∃ c', make e s k c = (⟨c', s.objs ++ [some (k, e.addr a.objs.length)]⟩, some (.obj a.objs.length)) ∧ R c' (Imgs.spec p (e.addr a.objs.length) c).1 := by
  obtain ⟨c', h1, h2⟩ := step_refines h.r (fresh_legal h hf) hc
  refine ⟨c', ?_, h2⟩
  unfold make
  rw [h.len, h1, hh]
  simp only
  rw [if_neg hf.1]

theorem j_same {e : Env} {s : St} {p : Prog} {a : Sp} {v : Nat → Img} (h : J e s p a v) {c' : Imgs.St} (hr : R c' p) : J e ⟨c', s.objs⟩ p a v :=
  ⟨hr, h.len, h.objs, h.img, h.con, h.imgBack, h.conBack, h.apart, h.view, h.own⟩

theorem call_spec {e : Env} {s : St} {p : Prog} {a : Sp} {v : Nat → Img} (h : J e s p a v) (c : Call) (f : Res → Val) (hc : CallerOk p c)
    (he : ∀ q, exec s.c q c = exec s.c 0 c) : ∃ c' q, call s c f = (⟨c', s.objs⟩, some (f (Imgs.spec p q c).2)) ∧ R c' (Imgs.spec p q c).1 := by
  obtain ⟨q, hq⟩ := some_address h
  obtain ⟨c', h1, h2⟩ := step_refines h.r hq hc
  refine ⟨c', q, ?_, h2⟩
  unfold call
  rw [← he q, h1]

/-- A call that only tells something. -/
theorem tell_spec {e : Env} {s : St} {p : Prog} {a : Sp} {v : Nat → Img} (h : J e s p a v) (c : Call) (f : Res → Val) (hc : CallerOk p c)
    (he : ∀ q, exec s.c q c = exec s.c 0 c) (r : Res) (hs : ∀ q, Imgs.spec p q c = (p, r)) : J e (call s c f).1 p a v ∧ (call s c f).2 = some (f r) := by
  obtain ⟨c', q, h1, h2⟩ := call_spec h c f hc he
  rw [hs q] at h1 h2
  rw [h1]
  exact ⟨j_same h h2, rfl⟩

theorem freshView_view {p : Prog} {w hh d : Nat} (il : Bool) (u : Int → Byte) (hsm : w < 2 ^ 31 ∧ hh < 2 ^ 31 ∧ d < 2 ^ 31 ∧ w * hh < 2 ^ 31 ∧ d * w < 2 ^ 31)
    {q : Pic} (hq : q.w = w ∧ q.h = hh ∧ q.d = d) (hst : (q.ws, q.hs, q.ds) = if il then (d, d * w, 1) else (1, w, w * hh))
    (hpx : ∀ i j k, q.px i j k = u (q.ws * i + q.hs * j + q.ds * k)) (p' : Prog) (hn : p'.next = p.next + 1) (hl : p'.len = put p.len p.next (w * hh * d)) (hx : p'.px = put p.px p.next u) :
    View p' (freshView p.next w hh d il) q := by
  obtain ⟨q1, q2, q3⟩ := hq
  obtain ⟨s1, s2, s3, s4, s5⟩ := hsm
  have hlay : Layout (freshView p.next w hh d il) := by
    unfold Layout freshView
    cases il <;> simp
  have hdata : (freshView p.next w hh d il).data = some p.next ∧ (freshView p.next w hh d il).fp = (p.next, 0) := by
    unfold freshView; cases il <;> exact ⟨rfl, rfl⟩
  have hsteps : (freshView p.next w hh d il).ws = q.ws ∧ (freshView p.next w hh d il).hs = q.hs ∧ (freshView p.next w hh d il).ds = q.ds := by
    cases il
    · simp only [Bool.false_eq_true, if_false, Prod.mk.injEq] at hst
      obtain ⟨e1, e2, e3⟩ := hst
      rw [e1, e2, e3]
      unfold freshView
      simp
    · simp only [if_true, Prod.mk.injEq] at hst
      obtain ⟨e1, e2, e3⟩ := hst
      rw [e1, e2, e3]
      unfold freshView
      simp
  refine ⟨?_, hsteps, layout_distinct hlay, ?_, ?_, ?_, ?_, ?_⟩
  · rw [q1, q2, q3]
    unfold freshView; cases il <;> exact ⟨rfl, rfl, rfl⟩
  · intro b hb
    rw [hdata.1] at hb
    cases hb
    rw [hdata.2]
    exact ⟨rfl, by omega⟩
  · intro hb; rw [hdata.1] at hb; cases hb
  · intro i j k _
    rw [hx]
    unfold addr
    rw [hdata.2, hsteps.1, hsteps.2.1, hsteps.2.2]
    simp only [put_self, hpx]
    congr 1
    omega
  · unfold Prog.bytes
    rw [hdata.1, hl, q1, q2, q3]
    simp only [put_self]
  · rw [q1, q2, q3]
    cases il
    · simp only [Bool.false_eq_true, if_false, Prod.mk.injEq] at hst
      obtain ⟨e1, e2, e3⟩ := hst
      rw [e1, e2, e3]
      exact ⟨s1, s2, s3, by decide, s1, s4⟩
    · simp only [if_true, Prod.mk.injEq] at hst
      obtain ⟨e1, e2, e3⟩ := hst
      rw [e1, e2, e3]
      exact ⟨s1, s2, s3, s3, s5, by decide⟩

theorem null_view (p : Prog) : View p mkNull ⟨0, 0, 0, 0, 0, 0, fun _ _ _ => 0⟩ := by
  refine ⟨⟨rfl, rfl, rfl⟩, ⟨rfl, rfl, rfl⟩, ?_, fun b hb => (by cases hb), fun _ i j k hp => ?_, fun i j k hp => ?_, rfl, by decide⟩
  · intro i j k i' j' k' hp; exact absurd hp.1 (Nat.not_lt_zero _)
  · exact absurd hp.1 (Nat.not_lt_zero _)
  · exact absurd hp.1 (Nat.not_lt_zero _)

/-- Sharing: a new image on the picture of an object. -/
theorem j_share {e : Env} {s : St} {p : Prog} {a : Sp} {v : Nat → Img} {c' : Imgs.St} {x n : Nat} {k : Kind} (h : J e s p a v) (hf : Fresh e a)
    (hx : a.obj x = some (k, n)) (hr : R c' (p.addImg (e.addr a.objs.length) (v n)).1) :
    J e ⟨c', s.objs ++ [some (.image, e.addr a.objs.length)]⟩ (p.addImg (e.addr a.objs.length) (v n)).1 ⟨a.pics, a.objs ++ [some (.image, n)]⟩ v := by
  have hvw : ∀ {w : Img} {q : Pic}, View p w q → View (p.addImg (e.addr a.objs.length) (v n)).1 w q := fun hv => view_later hv (Nat.le_refl _) fun _ _ => ⟨rfl, rfl⟩
  obtain ⟨h1, h2⟩ := h.view x k n hx
  exact j_addImg h hf hr rfl rfl rfl (by omega) (fun _ _ => rfl) (fun y k' m hy => hvw (h.view y k' m hy).1) (hvw h1)
    (fun y k' m b hy hb hb' => h.own y x k' k m n b hy hx hb hb')

/-- What one statement does. -/
theorem step_spec {e : Env} {s : St} {p : Prog} {a : Sp} {v : Nat → Img} (h : J e s p a v) (op : Op) (hl : Legal e a op) (hs : Small op) :
    ∃ p' v', J e (step e s op).1 p' (spec e a op).1 v' ∧ (step e s op).2 = some (spec e a op).2 := by
  have bad : J e (s, some Val.argument).1 p a v ∧ (s, some Val.argument).2 = some Val.argument := ⟨h, rfl⟩
  have has : ∀ {x n}, a.obj x = some (.image, n) → p.Has (e.addr x) fun _ => True := fun hx => ⟨_, h.img _ _ hx, trivial⟩
  have vw : ∀ {x k n}, a.obj x = some (k, n) → View p (v n) (a.pics n) := fun hx => (h.view _ _ _ hx).1
  cases op with
  | new =>
    obtain ⟨c', h1, h2⟩ := make_spec h hl .image .new trivial rfl
    have hst : step e s .new = make e s .image .new := rfl
    rw [hst, h1]
    exact ⟨_, _, j_fresh h hl h2 rfl rfl rfl (Nat.le_refl _) (fun _ _ => ⟨rfl, rfl⟩) (null_view _) (fun b hb => by cases hb), rfl⟩
  | newDim w hh d il =>
    obtain ⟨hf, hlt⟩ := hl
    obtain ⟨c', h1, h2⟩ := make_spec h hf .image (.newDim w hh d il (e.junk a.objs.length)) hlt rfl
    have hold : ∀ b, b < p.next → put p.px p.next (e.junk a.objs.length) b = p.px b ∧ put p.len p.next (w * hh * d) b = p.len b := by
      intro b hb
      rw [put_ne _ _ (by omega), put_ne _ _ (by omega)]
      exact ⟨rfl, rfl⟩
    have hd : ∀ b, (freshView p.next w hh d il).data = some b → p.next ≤ b := by
      intro b hb
      unfold freshView at hb
      cases il <;> (cases hb; exact Nat.le_refl _)
    have hpic : (spec e a (.newDim w hh d il)) = a.fresh (if il then ⟨w, hh, d, d, d * w, 1, fun i j k => e.junk a.objs.length (d * i + d * w * j + k)⟩
        else ⟨w, hh, d, 1, w, w * hh, fun i j k => e.junk a.objs.length (i + w * j + w * hh * k)⟩) := by cases il <;> rfl
    rw [hpic]
    have hst : step e s (.newDim w hh d il) = make e s .image (.newDim w hh d il (e.junk a.objs.length)) := by
      show make e s .image (.newDim w hh d il (e.junk s.objs.length)) = _
      rw [h.len]
    rw [hst, h1]
    refine ⟨_, _, j_fresh h hf h2 rfl rfl rfl (Nat.le_succ _) hold ?_ hd, rfl⟩
    refine freshView_view (p := p) il (e.junk a.objs.length) hs ?_ ?_ ?_ _ rfl rfl rfl
    · cases il <;> exact ⟨rfl, rfl, rfl⟩
    · cases il <;> rfl
    · intro i j k
      cases il
      · simp only [Bool.false_eq_true, if_false]
        congr 1
        simp
      · simp only [if_true]
        congr 1
        simp
  | fromImage x =>
    simp only [step, spec, Sp.on, h.objs x]
    cases hx : a.obj x with
    | none => exact ⟨p, v, bad⟩
    | some o =>
      obtain ⟨k, n⟩ := o
      cases k with
      | container => exact ⟨p, v, bad⟩
      | image =>
        have hi := h.img x n hx
        obtain ⟨c', h1, h2⟩ := make_spec h hl .image (.newFrom (e.addr x)) (has hx) (by simp only [Imgs.spec, hi]; rfl)
        simp only [Imgs.spec, hi] at h2
        simp only [Option.map_some, h1, if_true]
        exact ⟨_, v, j_share h hl hx h2, trivial⟩
  | newContainer x =>
    simp only [step, spec, Sp.on, h.objs x]
    cases hx : a.obj x with
    | none => exact ⟨p, v, bad⟩
    | some o =>
      obtain ⟨k, n⟩ := o
      cases k with
      | container => exact ⟨p, v, bad⟩
      | image =>
        have hi := h.img x n hx
        obtain ⟨c', h1, h2⟩ := make_spec h hl .container (.cNew (e.addr x)) (has hx) (by simp only [Imgs.spec, hi]; rfl)
        simp only [Imgs.spec, hi] at h2
        simp only [Option.map_some, h1, if_true]
        exact ⟨_, v, j_addCon h hl hx h2, trivial⟩
  | getImage x =>
    simp only [step, spec, Sp.on, h.objs x]
    cases hx : a.obj x with
    | none => exact ⟨p, v, bad⟩
    | some o =>
      obtain ⟨k, n⟩ := o
      cases k with
      | image => exact ⟨p, v, bad⟩
      | container =>
        have hi := (h.con x n hx).1
        obtain ⟨c', h1, h2⟩ := make_spec h hl .image (.cImage (e.addr x)) trivial (by simp only [Imgs.spec, hi]; rfl)
        simp only [Imgs.spec, hi] at h2
        simp only [Option.map_some, h1, if_true]
        exact ⟨_, v, j_share h hl hx h2, trivial⟩
  | size x =>
    simp only [step, spec, Sp.tell, h.objs x]
    cases hx : a.obj x with
    | none => exact ⟨p, v, bad⟩
    | some o =>
      obtain ⟨k, n⟩ := o
      cases k with
      | image =>
        obtain ⟨h1, h2⟩ := tell_spec h (.size (e.addr x)) num (has hx) (fun _ => rfl) (.num (p.bytes (v n))) (fun q => by simp only [Imgs.spec, ofImg, h.img x n hx])
        exact ⟨p, v, by simpa using h1, by simpa [num, (vw hx).bytes] using h2⟩
      | container =>
        obtain ⟨h1, h2⟩ := tell_spec h (.cSize (e.addr x)) num trivial (fun _ => rfl) (.num (p.bytes (v n))) (fun q => by simp only [Imgs.spec, ofCon, (h.con x n hx).1])
        exact ⟨p, v, by simpa using h1, by simpa [num, (vw hx).bytes] using h2⟩
  | width x =>
    simp only [step, spec, Sp.tell, h.objs x]
    cases hx : a.obj x with
    | none => exact ⟨p, v, bad⟩
    | some o =>
      obtain ⟨k, n⟩ := o
      cases k with
      | image =>
        obtain ⟨h1, h2⟩ := tell_spec h (.width (e.addr x)) numInt (has hx) (fun _ => rfl) (.num (v n).w) (fun q => by simp only [Imgs.spec, ofImg, h.img x n hx])
        exact ⟨p, v, by simpa using h1, by simpa [numInt, (vw hx).dims.1, cInt_small (vw hx).small.1] using h2⟩
      | container =>
        obtain ⟨h1, h2⟩ := tell_spec h (.cWidth (e.addr x)) num trivial (fun _ => rfl) (.num (v n).w) (fun q => by simp only [Imgs.spec, ofCon, (h.con x n hx).1])
        exact ⟨p, v, by simpa using h1, by simpa [num, (vw hx).dims.1] using h2⟩
  | height x =>
    simp only [step, spec, Sp.tell, h.objs x]
    cases hx : a.obj x with
    | none => exact ⟨p, v, bad⟩
    | some o =>
      obtain ⟨k, n⟩ := o
      cases k with
      | image =>
        obtain ⟨h1, h2⟩ := tell_spec h (.height (e.addr x)) numInt (has hx) (fun _ => rfl) (.num (v n).h) (fun q => by simp only [Imgs.spec, ofImg, h.img x n hx])
        exact ⟨p, v, by simpa using h1, by simpa [numInt, (vw hx).dims.2.1, cInt_small (vw hx).small.2.1] using h2⟩
      | container =>
        obtain ⟨h1, h2⟩ := tell_spec h (.cHeight (e.addr x)) num trivial (fun _ => rfl) (.num (v n).h) (fun q => by simp only [Imgs.spec, ofCon, (h.con x n hx).1])
        exact ⟨p, v, by simpa using h1, by simpa [num, (vw hx).dims.2.1] using h2⟩
  | depth x =>
    simp only [step, spec, Sp.tell, h.objs x]
    cases hx : a.obj x with
    | none => exact ⟨p, v, bad⟩
    | some o =>
      obtain ⟨k, n⟩ := o
      cases k with
      | image =>
        obtain ⟨h1, h2⟩ := tell_spec h (.depth (e.addr x)) numInt (has hx) (fun _ => rfl) (.num (v n).d) (fun q => by simp only [Imgs.spec, ofImg, h.img x n hx])
        exact ⟨p, v, by simpa using h1, by simpa [numInt, (vw hx).dims.2.2, cInt_small (vw hx).small.2.2.1] using h2⟩
      | container =>
        obtain ⟨h1, h2⟩ := tell_spec h (.cDepth (e.addr x)) num trivial (fun _ => rfl) (.num (v n).d) (fun q => by simp only [Imgs.spec, ofCon, (h.con x n hx).1])
        exact ⟨p, v, by simpa using h1, by simpa [num, (vw hx).dims.2.2] using h2⟩
  | wStep x =>
    simp only [step, spec, Sp.tell, h.objs x]
    cases hx : a.obj x with
    | none => exact ⟨p, v, bad⟩
    | some o =>
      obtain ⟨k, n⟩ := o
      cases k with
      | container => exact ⟨p, v, by simpa using bad⟩
      | image =>
        obtain ⟨h1, h2⟩ := tell_spec h (.wStep (e.addr x)) numInt (has hx) (fun _ => rfl) (.num (toSize (v n).ws)) (fun q => by simp only [Imgs.spec, ofImg, h.img x n hx])
        exact ⟨p, v, by simpa using h1, by simpa [numInt, (vw hx).steps.1, step_small (vw hx).small.2.2.2.1] using h2⟩
  | hStep x =>
    simp only [step, spec, Sp.tell, h.objs x]
    cases hx : a.obj x with
    | none => exact ⟨p, v, bad⟩
    | some o =>
      obtain ⟨k, n⟩ := o
      cases k with
      | container => exact ⟨p, v, by simpa using bad⟩
      | image =>
        obtain ⟨h1, h2⟩ := tell_spec h (.hStep (e.addr x)) numInt (has hx) (fun _ => rfl) (.num (toSize (v n).hs)) (fun q => by simp only [Imgs.spec, ofImg, h.img x n hx])
        exact ⟨p, v, by simpa using h1, by simpa [numInt, (vw hx).steps.2.1, step_small (vw hx).small.2.2.2.2.1] using h2⟩
  | dStep x =>
    simp only [step, spec, Sp.tell, h.objs x]
    cases hx : a.obj x with
    | none => exact ⟨p, v, bad⟩
    | some o =>
      obtain ⟨k, n⟩ := o
      cases k with
      | container => exact ⟨p, v, by simpa using bad⟩
      | image =>
        obtain ⟨h1, h2⟩ := tell_spec h (.dStep (e.addr x)) numInt (has hx) (fun _ => rfl) (.num (toSize (v n).ds)) (fun q => by simp only [Imgs.spec, ofImg, h.img x n hx])
        exact ⟨p, v, by simpa using h1, by simpa [numInt, (vw hx).steps.2.2, step_small (vw hx).small.2.2.2.2.2] using h2⟩
  | pixel x i j k =>
    simp only [step, spec, Sp.tell, h.objs x]
    cases hx : a.obj x with
    | none => exact ⟨p, v, bad⟩
    | some o =>
      obtain ⟨c, n⟩ := o
      cases c with
      | container => exact ⟨p, v, by simpa using bad⟩
      | image =>
        have hp : IsPixel (v n) i j k := by
          have := hl _ _ hx
          unfold IsPixel
          rw [(vw hx).dims.1, (vw hx).dims.2.1, (vw hx).dims.2.2]
          exact this
        have hld : load s.c.mem (addr (v n) i j k) = some ((a.pics n).px i j k) := by
          rw [load_valid (good_valid h.r (h.r.goodI _ _ (h.img x n hx)) (viewed_img h.r (h.img x n hx))) hp]
          unfold pix
          rw [h.r.val, (vw hx).px _ _ _ hp]
        simp only [Option.map_some, use_live h.r (h.img x n hx), pyAddr_eq (vw hx), hld]
        exact ⟨p, v, by simpa using h, by simp [num]⟩
  | write x i j k w =>
    simp only [step, spec, h.objs x]
    cases hx : a.obj x with
    | none => exact ⟨p, v, bad⟩
    | some o =>
      obtain ⟨c, n⟩ := o
      cases c with
      | container => exact ⟨p, v, by simpa using bad⟩
      | image =>
        have hp : IsPixel (v n) i j k := by
          have := hl _ _ hx
          unfold IsPixel
          rw [(vw hx).dims.1, (vw hx).dims.2.1, (vw hx).dims.2.2]
          exact this
        obtain ⟨q, hq⟩ := some_address h
        obtain ⟨c', h1, h2⟩ := step_refines (c := .write (e.addr x) i j k w) h.r hq ⟨_, h.img x n hx, hp⟩
        simp only [exec] at h1
        simp only [Option.map_some, use_live h.r (h.img x n hx), pyAddr_eq (vw hx)] at h1 ⊢
        rw [h1]
        simp only [Imgs.spec, h.img x n hx] at h2 ⊢
        exact ⟨_, v, j_write h hx hp h2 rfl, rfl⟩
  | collect x =>
    simp only [step, spec, h.objs x]
    cases hx : a.obj x with
    | none => exact ⟨p, v, bad⟩
    | some o =>
      obtain ⟨k, n⟩ := o
      cases k with
      | image =>
        obtain ⟨c', q, h1, h2⟩ := call_spec h (.destroy (e.addr x)) num (Or.inr (has hx)) (fun _ => rfl)
        simp only [Option.map_some, h1]
        exact ⟨_, v, j_collect h hx h2 rfl rfl (fun _ _ => rfl) rfl rfl rfl, rfl⟩
      | container =>
        obtain ⟨c', q, h1, h2⟩ := call_spec h (.cDestroy (e.addr x)) num trivial (fun _ => rfl)
        simp only [Option.map_some, h1]
        simp only [Imgs.spec, (h.con x n hx).2, if_true] at h2 ⊢
        exact ⟨_, v, j_collect h hx h2 rfl rfl (fun r hr => put_ne _ _ (hr rfl)) rfl rfl rfl, rfl⟩

theorem run_spec {e : Env} (ops : List Op) : ∀ {s : St} {p : Prog} {a : Sp} {v : Nat → Img}, J e s p a v → LegalRun e a ops → (∀ op ∈ ops, Small op) →
    (run e s ops).2 = (specRun e a ops).2.map some ∧ ∃ p' v', J e (run e s ops).1 p' (specRun e a ops).1 v' := by
  induction ops with
  | nil => intro s p a v h _ _; exact ⟨rfl, p, v, h⟩
  | cons op ops ih =>
    intro s p a v h hl hs
    obtain ⟨p', v', h1, h2⟩ := step_spec h op hl.1 (hs op (by simp))
    obtain ⟨h3, h4⟩ := ih h1 hl.2 fun o ho => hs o (by simp [ho])
    refine ⟨?_, h4⟩
    show (step e s op).2 :: _ = _
    rw [h2, h3]
    rfl

/-- What C284 says, for images whose dimensions and steps fit in C ints. -/
theorem C284_pictures_partial (e : Env) (ops : List Op) (hl : LegalRun e Sp.init ops) (hs : ∀ op ∈ ops, Small op) :
    (run e St.init ops).2 = (specRun e Sp.init ops).2.map some := (run_spec ops (j_init e) hl hs).1

/-- C284: when every object is collected, no pixels are left in memory. -/
theorem C284_no_leak (e : Env) (ops : List Op) (hl : LegalRun e Sp.init ops) (hs : ∀ op ∈ ops, Small op) (hc : ∀ x, (specRun e Sp.init ops).1.obj x = none) (b : Nat) :
    (run e St.init ops).1.c.mem.size b = 0 ∧ (∀ q, (run e St.init ops).1.c.imgs q = none ∧ (run e St.init ops).1.c.cons q = none) := by
  obtain ⟨p, v, h⟩ := (run_spec ops (j_init e) hl hs).2
  have hi : ∀ q, p.img q = none := by
    intro q
    cases hq : p.img q with
    | none => rfl
    | some g => obtain ⟨x, n, hx, _⟩ := h.imgBack q g hq; rw [hc] at hx; cases hx
  have hco : ∀ q, p.con q = none := by
    intro q
    cases hq : p.con q with
    | none => rfl
    | some g => obtain ⟨x, n, hx, _⟩ := h.conBack q g hq; rw [hc] at hx; cases hx
  refine ⟨?_, fun q => ⟨by rw [h.r.img]; exact hi q, by rw [h.r.con]; exact hco q⟩⟩
  have : (run e St.init ops).1.c.cnt b = 0 := by
    by_contra hne
    rcases (counts_pos h.r.counts b).1 hne with ⟨q, g, hq, _⟩ | ⟨q, g, hq, _⟩
    · rw [hi] at hq; cases hq
    · rw [hco] at hq; cases hq
  rw [h.r.size b, if_pos this]

/-- C284 is false of the code: the width of an Image is a C int. -/
theorem C284_refuted : ¬ C284_statement := by
  intro h
  have := h ⟨fun n => n + 1, fun _ _ => 0⟩ [.newDim (2 ^ 31) 0 1 false, .width 0] ⟨⟨⟨by decide, fun y hy => by simp [Sp.obj, Sp.init] at hy⟩, by decide⟩, trivial, trivial⟩
  revert this
  decide +kernel

/-! ### Non-trivial cases -/

def demoEnv : Env := ⟨fun n => if n = 3 then 1 else n + 1, fun n o => (10 * n + o.toNat).toUInt8⟩

/-- An image, a container on it; the image is collected, its address used again, and a byte written through the image of the container. -/
def demo : List Op := [.newDim 2 2 1 true, .newContainer 0, .fromImage 0, .collect 0, .getImage 1, .write 3 1 1 0 99, .pixel 2 1 1 0, .pixel 3 0 1 0, .width 1, .wStep 2, .hStep 3,
  .size 1, .width 0, .newContainer 1, .collect 1, .collect 2, .pixel 3 1 1 0, .collect 3]

theorem demo_legal : LegalRun demoEnv Sp.init demo ∧ ∀ op ∈ demo, Small op := by
  have fr : ∀ a : Sp, a.objs.length ≤ 4 → demoEnv.addr a.objs.length ≠ 0 → (∀ y ∈ List.range 4, (a.obj y).isSome = true → demoEnv.addr y ≠ demoEnv.addr a.objs.length) → Fresh demoEnv a := by
    intro a hl h0 h
    refine ⟨h0, fun y hy => h y ?_ hy⟩
    obtain ⟨o, ho⟩ := Option.isSome_iff_exists.1 hy
    have := obj_lt ho
    exact List.mem_range.2 (by omega)
  have hs : ∀ (a : Sp) (x i j k : Nat) (c : Kind) (n : Nat), a.obj x = some (c, n) → i < (a.pics n).w ∧ j < (a.pics n).h ∧ k < (a.pics n).d → a.Has x i j k := by
    intro a x i j k c n h1 h2 c' n' h3
    rw [h1] at h3
    cases h3
    exact h2
  refine ⟨⟨⟨fr _ (by decide) (by decide) (by decide), by decide⟩, fr _ (by decide) (by decide) (by decide), fr _ (by decide) (by decide) (by decide), trivial,
    fr _ (by decide) (by decide) (by decide), hs _ _ _ _ _ .image 0 (by decide) (by decide), hs _ _ _ _ _ .image 0 (by decide) (by decide), hs _ _ _ _ _ .image 0 (by decide) (by decide),
    trivial, trivial, trivial, trivial, trivial, ?_, trivial, trivial, hs _ _ _ _ _ .image 0 (by decide) (by decide), trivial, trivial⟩, ?_⟩
  · exact fr _ (by decide) (by decide) (by decide)
  · intro op hop
    simp only [demo, List.mem_cons, List.not_mem_nil, or_false] at hop
    rcases hop with rfl | rfl | rfl | rfl | rfl | rfl | rfl | rfl | rfl | rfl | rfl | rfl | rfl | rfl | rfl | rfl | rfl | rfl <;> trivial

example : (specRun demoEnv Sp.init demo).2 = [.obj 0, .obj 1, .obj 2, .none, .obj 3, .none, .int 99, .int 2, .int 2, .int 1, .int 2, .int 4, .argument, .argument, .none, .none, .int 99, .none] ∧
    (∀ x ∈ List.range 4, (specRun demoEnv Sp.init demo).1.obj x = none) := by
  constructor <;> decide +kernel

end Vital.Py.Pics
