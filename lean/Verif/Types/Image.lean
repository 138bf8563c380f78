/-
  Model of vital/types/image.{h,cxx}; properties C40 - C44.
  Memory is a set of numbered blocks of bytes; a pointer is a block and an offset.  Dereferencing outside
  of a block is undefined behaviour and modelled by `none`.  Block 0 is the null pointer (no bytes).
  The value type `B` of a byte is arbitrary.
  Simplifications: `unsigned` loop counters do not wrap (dimensions below 2^32); pointers that are
  advanced by a step per iteration are written as first pixel + index * step; pointer arithmetic itself
  (without dereferencing) is never undefined.
-/
namespace Vital.Image

variable {B : Type}

/-- A pointer: block number and offset in bytes. -/
abbrev Ptr := Nat × Int

structure Mem (B : Type) where
  next : Nat
  size : Nat → Nat
  val : Nat → Int → B

-- models: reading `*p`
def load (m : Mem B) (p : Ptr) : Option B :=
  if 0 ≤ p.2 ∧ p.2 < m.size p.1 then some (m.val p.1 p.2) else none

-- models: writing `*p = v`
def store (m : Mem B) (p : Ptr) (v : B) : Option (Mem B) :=
  if 0 ≤ p.2 ∧ p.2 < m.size p.1 then
    some { m with val := fun b o => if b = p.1 ∧ o = p.2 then v else m.val b o }
  else none

-- models: vital/types/image.cxx:55-60 (image_memory(size_t n): new char[n], contents indeterminate `u`)
def alloc (m : Mem B) (n : Nat) (u : Int → B) : Mem B × Nat :=
  ({ next := m.next + 1, size := fun b => if b = m.next then n else m.size b,
     val := fun b o => if b = m.next then u o else m.val b o }, m.next)

-- models: vital/types/image.h:305-314 (data members)
structure Img where
  data : Option Nat
  fp : Ptr
  w : Nat
  h : Nat
  d : Nat
  ws : Int
  hs : Int
  ds : Int
deriving DecidableEq

-- models: vital/types/image.cxx:120-131 (default constructor)
def mkNull : Img := ⟨none, (0, 0), 0, 0, 0, 0, 0, 0⟩

/-- `size_t` arithmetic. -/
def sizeMod : Nat := 2 ^ 64

-- models: vital/types/image.cxx:135-152 (allocating constructor)
def mkImage (m : Mem B) (u : Int → B) (w h d : Nat) (interleave : Bool) : Mem B × Img :=
  let (m', b) := alloc m (w * h * d % sizeMod) u
  if interleave then (m', ⟨some b, (b, 0), w, h, d, (d : Int), (d * w : Nat), 1⟩)
  else (m', ⟨some b, (b, 0), w, h, d, 1, (w : Int), (w * h : Nat)⟩)

-- models: vital/types/image.cxx:156-168 and 172-185 (constructors on existing memory)
def mkView (data : Option Nat) (fp : Ptr) (w h d : Nat) (ws hs ds : Int) : Img := ⟨data, fp, w, h, d, ws, hs, ds⟩

-- models: vital/types/image.cxx:189-219 (copy constructor and assignment share the memory)
def share (i : Img) : Img := ⟨i.data, i.fp, i.w, i.h, i.d, i.ws, i.hs, i.ds⟩

-- models: vital/types/image.cxx:270-293 (set_size)
def setSize (m : Mem B) (u : Int → B) (i : Img) (w h d : Nat) : Mem B × Img :=
  if w = i.w ∧ h = i.h ∧ d = i.d then (m, i)
  else
    let (m', b) := alloc m (w * h * d % sizeMod) u
    let ws := if i.ws = 0 ∨ i.ws ≠ (d : Int) then 1 else i.ws
    (m', ⟨some b, (b, 0), w, h, d, ws, w * ws, if ws = 1 then (w * h : Nat) else 1⟩)

/-- Address of channel `k` of pixel `(i, j)`. -/
-- models: the index expression in vital/types/image.h:243-281
def addr (g : Img) (i j k : Nat) : Ptr := (g.fp.1, g.fp.2 + (g.ws * i + g.hs * j + g.ds * k))

/-- Result of a checked access: the exception, undefined behaviour, or a value. -/
inductive Access (α : Type) where
  | outOfRange
  | undef
  | ok (a : α)
deriving DecidableEq

def Access.ofLoad {α : Type} : Option α → Access α
  | none => .undef
  | some a => .ok a

-- models: vital/types/image.h:245-259 (operator()(i,j))
def get2 (m : Mem B) (g : Img) (i j : Nat) : Access B :=
  if i ≥ g.w ∨ j ≥ g.h then .outOfRange else .ofLoad (load m (g.fp.1, g.fp.2 + (g.ws * i + g.hs * j)))

-- models: vital/types/image.h:263-282 (operator()(i,j,k))
def get3 (m : Mem B) (g : Img) (i j k : Nat) : Access B :=
  if i ≥ g.w ∨ j ≥ g.h ∨ k ≥ g.d then .outOfRange else .ofLoad (load m (addr g i j k))

-- models: vital/types/image.h:263-271 (operator()(i,j,k) used as an assignment target)
def set3 (m : Mem B) (g : Img) (i j k : Nat) (v : B) : Access (Mem B) :=
  if i ≥ g.w ∨ j ≥ g.h ∨ k ≥ g.d then .outOfRange else .ofLoad (store m (addr g i j k) v)

-- models: vital/types/image.h:221-238 (at)
def at2 (m : Mem B) (g : Img) (i j : Nat) : Access (B × B × B) :=
  if i ≥ g.w ∨ j ≥ g.h then .outOfRange
  else if g.d < 3 then
    .ofLoad ((load m (g.fp.1, g.fp.2 + (g.ws * i + g.hs * j))).map (fun v => (v, v, v)))
  else
    .ofLoad (do
      let r ← load m (addr g i j 0)
      let gr ← load m (addr g i j 1)
      let b ← load m (addr g i j 2)
      pure (r, gr, b))

/-- Index triples in the order of three nested loops, outermost first. -/
def triples (n2 n1 n0 : Nat) : List (Nat × Nat × Nat) :=
  (List.range n2).flatMap fun a => (List.range n1).flatMap fun b => (List.range n0).map fun c => (a, b, c)

/-- Run a loop body over a list of index triples; undefined behaviour stops everything. -/
def run {σ : Type} (body : σ → Nat × Nat × Nat → Option σ) : List (Nat × Nat × Nat) → σ → Option σ
  | [], s => some s
  | t :: l, s => match body s t with
    | none => none
    | some s' => run body l s'

-- models: vital/types/image.cxx:259-262 (innermost statement of copy_from)
def copyPixel (a b : Img) (m : Mem B) (t : Nat × Nat × Nat) : Option (Mem B) :=
  match load m (addr b t.2.2 t.2.1 t.1) with
  | none => none
  | some v => store m (addr a t.2.2 t.2.1 t.1) v

-- models: vital/types/image.cxx:236-266 (copy_from)
def copyFrom (m : Mem B) (u : Int → B) (a b : Img) : Option (Mem B × Img) :=
  let (m1, a1) := setSize m u a b.w b.h b.d
  match run (copyPixel a1 b) (triples a1.d a1.h a1.w) m1 with
  | none => none
  | some m2 => some (m2, a1)

-- models: vital/types/image.cxx:313-317 (loop body of equal_content; the state is whether to go on).
-- The checked accesses cannot throw inside the loops.
def cmpPixel [DecidableEq B] (m : Mem B) (a b : Img) (go : Bool) (t : Nat × Nat × Nat) : Option Bool :=
  if go then
    match get3 m a t.2.2 t.2.1 t.1, get3 m b t.2.2 t.2.1 t.1 with
    | .ok x, .ok y => some (decide (x = y))
    | _, _ => none
  else some false

-- models: vital/types/image.cxx:297-323 (equal_content)
def equalContent [DecidableEq B] (m : Mem B) (a b : Img) : Option Bool :=
  if a.w ≠ b.w ∨ a.h ≠ b.h ∨ a.d ≠ b.d then some false
  else run (cmpPixel m a b) (triples a.d a.h a.w) true

/-- `bool` as the integer used in the index sums. -/
def bn (b : Bool) : Nat := if b then 1 else 0

-- models: vital/types/image.cxx:336-341 (w_idx, h_idx, d_idx)
def wIdx (g : Img) : Nat := bn (!decide (g.ws < g.hs)) + bn (decide (g.ds < g.ws))
def hIdx (g : Img) : Nat := bn (decide (g.ws < g.hs)) + bn (decide (g.ds < g.hs))
def dIdx (g : Img) : Nat := bn (!decide (g.ds < g.ws)) + bn (!decide (g.ds < g.hs))

/-- The arrays `side_len` and `step_size` after the six assignments (last assignment wins); slots that
    were never assigned hold the indeterminate value `junk`. -/
-- models: vital/types/image.cxx:343-348
def sideLen (g : Img) (junk : Nat) (n : Nat) : Nat :=
  if dIdx g = n then g.d else if hIdx g = n then g.h else if wIdx g = n then g.w else junk
def stepSize (g : Img) (junk : Int) (n : Nat) : Int :=
  if dIdx g = n then g.ds else if hIdx g = n then g.hs else if wIdx g = n then g.ws else junk

-- models: vital/types/image.cxx:362-365 (`*d0_s = op(*d0_s)`)
def opPixel (op : B → B) (g : Img) (junk : Int) (m : Mem B) (t : Nat × Nat × Nat) : Option (Mem B) :=
  let p : Ptr := (g.fp.1, g.fp.2 + (stepSize g junk 2 * t.1 + stepSize g junk 1 * t.2.1 + stepSize g junk 0 * t.2.2))
  match load m p with
  | none => none
  | some v => store m p (op v)

-- models: vital/types/image.cxx:327-369 (transform_image); the function pointer is a pure function
def transformImage (m : Mem B) (g : Img) (op : B → B) (junkN : Nat) (junkI : Int) : Option (Mem B) :=
  run (opPixel op g junkI) (triples (sideLen g junkN 2) (sideLen g junkN 1) (sideLen g junkN 0)) m

/-! ### Specification -/

/-- `p` is a byte of a channel of a pixel of the image. -/
def IsPixel (g : Img) (i j k : Nat) : Prop := i < g.w ∧ j < g.h ∧ k < g.d

/-- All pixels lie inside allocated memory. -/
def Valid (m : Mem B) (g : Img) : Prop :=
  ∀ i j k, IsPixel g i j k → 0 ≤ (addr g i j k).2 ∧ (addr g i j k).2 < m.size (addr g i j k).1

/-- Different pixels have different addresses. -/
def Distinct (g : Img) : Prop :=
  ∀ i j k i' j' k', IsPixel g i j k → IsPixel g i' j' k' → addr g i j k = addr g i' j' k' → i = i' ∧ j = j' ∧ k = k'

/-- Value of the byte of pixel `(i,j)`, channel `k`. -/
def pix (m : Mem B) (g : Img) (i j k : Nat) : B := m.val (addr g i j k).1 (addr g i j k).2

/-! ### Loops -/

theorem mem_triples {n2 n1 n0 : Nat} {t : Nat × Nat × Nat} :
    t ∈ triples n2 n1 n0 ↔ t.1 < n2 ∧ t.2.1 < n1 ∧ t.2.2 < n0 := by
  unfold triples
  simp only [List.mem_flatMap, List.mem_range, List.mem_map]
  constructor
  · rintro ⟨a, ha, b, hb, c, hc, rfl⟩; exact ⟨ha, hb, hc⟩
  · rintro ⟨h1, h2, h3⟩; exact ⟨t.1, h1, t.2.1, h2, t.2.2, h3, rfl⟩

theorem nodup_flatMap {α β : Type} {l : List α} {f : α → List β} (hl : l.Nodup) (hf : ∀ a ∈ l, (f a).Nodup)
    (hd : ∀ a ∈ l, ∀ b ∈ l, a ≠ b → ∀ x ∈ f a, x ∉ f b) : (l.flatMap f).Nodup := by
  induction l with
  | nil => simp
  | cons a l ih =>
    rw [List.flatMap_cons]
    have hl' := List.nodup_cons.1 hl
    refine List.nodup_append.2 ⟨hf a (by simp), ih hl'.2 (fun b hb => hf b (by simp [hb]))
      (fun b hb c hc => hd b (by simp [hb]) c (by simp [hc])), ?_⟩
    intro x hx y hy hxy
    subst hxy
    obtain ⟨b, hb, hxb⟩ := List.mem_flatMap.1 hy
    exact hd a (by simp) b (by simp [hb]) (fun e => hl'.1 (e ▸ hb)) x hx hxb

theorem nodup_triples (n2 n1 n0 : Nat) : (triples n2 n1 n0).Nodup := by
  unfold triples
  refine nodup_flatMap List.nodup_range (fun a _ => nodup_flatMap List.nodup_range (fun b _ => ?_) ?_) ?_
  · refine List.pairwise_map.2 (List.nodup_range.imp ?_)
    intro x y h he
    simp at he
    exact h he
  · intro b _ b' _ hne x hx hx'
    obtain ⟨c, _, rfl⟩ := List.mem_map.1 hx
    obtain ⟨c', _, he⟩ := List.mem_map.1 hx'
    simp at he
    exact hne he.1.symm
  · intro a _ a' _ hne x hx hx'
    obtain ⟨b, _, hx⟩ := List.mem_flatMap.1 hx
    obtain ⟨b', _, hx'⟩ := List.mem_flatMap.1 hx'
    obtain ⟨c, _, rfl⟩ := List.mem_map.1 hx
    obtain ⟨c', _, he⟩ := List.mem_map.1 hx'
    simp at he
    exact hne he.1.symm

/-- A loop that writes each target once from values that the loop does not overwrite. -/
theorem run_writes (dst : Nat × Nat × Nat → Ptr) (v : Nat × Nat × Nat → B)
    (body : Mem B → Nat × Nat × Nat → Option (Mem B)) :
    ∀ (l : List (Nat × Nat × Nat)) (m : Mem B), l.Nodup →
      (∀ t ∈ l, ∀ t' ∈ l, dst t = dst t' → t = t') →
      (∀ (m' : Mem B), m'.size = m.size → (∀ t ∈ l, ∀ l' : List (Nat × Nat × Nat), l' ⊆ l → t ∉ l' →
        (∀ p : Ptr, (∀ t' ∈ l', p ≠ dst t') → m'.val p.1 p.2 = m.val p.1 p.2) →
        body m' t = some { m' with val := fun b o => if b = (dst t).1 ∧ o = (dst t).2 then v t else m'.val b o })) →
      ∃ m', run body l m = some m' ∧ m'.size = m.size ∧ m'.next = m.next ∧ (∀ t ∈ l, m'.val (dst t).1 (dst t).2 = v t) ∧
        (∀ p : Ptr, (∀ t ∈ l, p ≠ dst t) → m'.val p.1 p.2 = m.val p.1 p.2) := by
  intro l
  induction l with
  | nil => intro m _ _ _; exact ⟨m, rfl, rfl, rfl, by simp, by simp⟩
  | cons t l ih =>
    intro m hnd hinj hb
    have hnd' := List.nodup_cons.1 hnd
    have h1 := hb m rfl t (by simp) [] (by simp) (by simp) (by simp)
    let m1 : Mem B := { m with val := fun b o => if b = (dst t).1 ∧ o = (dst t).2 then v t else m.val b o }
    have hm1 : body m t = some m1 := h1
    have hv1 : ∀ p : Ptr, p ≠ dst t → m1.val p.1 p.2 = m.val p.1 p.2 := by
      intro p hp
      show (if p.1 = (dst t).1 ∧ p.2 = (dst t).2 then v t else m.val p.1 p.2) = _
      rw [if_neg]
      rintro ⟨e1, e2⟩; exact hp (Prod.ext e1 e2)
    obtain ⟨m2, r1, r2, r2', r3, r4⟩ := ih m1 hnd'.2
      (fun a ha b hb' => hinj a (by simp [ha]) b (by simp [hb']))
      (by
        intro m' hs a ha l' hl' hal' hp
        refine hb m' hs a (by simp [ha]) (t :: l') ?_ ?_ ?_
        · intro x hx
          rcases List.mem_cons.1 hx with rfl | hx
          · simp
          · exact List.mem_cons_of_mem _ (hl' hx)
        · intro hx
          rcases List.mem_cons.1 hx with rfl | hx
          · exact hnd'.1 ha
          · exact hal' hx
        · intro p hpp
          rw [hp p (fun t' ht' => hpp t' (by simp [ht'])), hv1 p (hpp t (by simp))])
    refine ⟨m2, ?_, r2, r2', ?_, ?_⟩
    · unfold run; rw [hm1]; exact r1
    · intro a ha
      rcases List.mem_cons.1 ha with rfl | ha
      · rw [r4 (dst a) (fun t' ht' he => hnd'.1 (by rw [hinj a (by simp) t' (by simp [ht']) he]; exact ht'))]
        show (if _ then _ else _) = _
        rw [if_pos ⟨rfl, rfl⟩]
      · exact r3 a ha
    · intro p hp
      rw [r4 p (fun t' ht' => hp t' (by simp [ht'])), hv1 p (hp t (by simp))]

/-! ### C40 -/

theorem digit_inj {w i i' q q' : Nat} (hi : i < w) (hi' : i' < w) (h : i + w * q = i' + w * q') : i = i' ∧ q = q' := by
  have e1 : i = i' := by
    have := congrArg (· % w) h
    simpa [Nat.add_mul_mod_self_left, Nat.mod_eq_of_lt hi, Nat.mod_eq_of_lt hi'] using this
  subst e1
  exact ⟨rfl, Nat.eq_of_mul_eq_mul_left (by omega : 0 < w) (by omega)⟩

theorem digit_lt {w i q n : Nat} (hi : i < w) (hq : q < n) : i + w * q < w * n := by
  have : w * (q + 1) ≤ w * n := Nat.mul_le_mul_left w hq
  rw [Nat.mul_succ] at this
  omega

/-- The layouts produced by the allocating constructor and by `set_size`: planar or interleaved. -/
def Layout (g : Img) : Prop :=
  (g.ws = 1 ∧ g.hs = (g.w : Int) ∧ g.ds = ((g.w * g.h : Nat) : Int)) ∨
  (g.ws = (g.d : Int) ∧ g.hs = ((g.d * g.w : Nat) : Int) ∧ g.ds = 1)

/-- Linear position of a pixel in such a layout. -/
theorem layout_pos {g : Img} (hl : Layout g) :
    (∀ i j k, g.ws * i + g.hs * j + g.ds * k = ((i + g.w * (j + g.h * k) : Nat) : Int)) ∨
    (∀ i j k, g.ws * i + g.hs * j + g.ds * k = ((k + g.d * (i + g.w * j) : Nat) : Int)) := by
  rcases hl with ⟨h1, h2, h3⟩ | ⟨h1, h2, h3⟩
  · left; intro i j k
    rw [h1, h2, h3]
    simp only [Int.natCast_add, Int.natCast_mul, Int.mul_add, Int.one_mul, Int.mul_assoc, Int.add_assoc]
  · right; intro i j k
    rw [h1, h2, h3]
    simp only [Int.natCast_add, Int.natCast_mul, Int.mul_add, Int.one_mul, Int.mul_assoc]
    omega

theorem layout_distinct {g : Img} (hl : Layout g) : Distinct g := by
  intro i j k i' j' k' ⟨a1, a2, a3⟩ ⟨b1, b2, b3⟩ he
  have he : g.ws * i + g.hs * j + g.ds * k = g.ws * i' + g.hs * j' + g.ds * k' := by
    have := congrArg Prod.snd he
    simp only [addr] at this
    omega
  rcases layout_pos hl with hp | hp
  · rw [hp, hp, Int.natCast_inj] at he
    obtain ⟨e1, e2⟩ := digit_inj a1 b1 he
    obtain ⟨e3, e4⟩ := digit_inj a2 b2 e2
    exact ⟨e1, e3, e4⟩
  · rw [hp, hp, Int.natCast_inj] at he
    obtain ⟨e1, e2⟩ := digit_inj a3 b3 he
    obtain ⟨e3, e4⟩ := digit_inj a1 b1 e2
    exact ⟨e3, e4, e1⟩

theorem layout_valid {g : Img} (hl : Layout g) {m : Mem B} (hf : g.fp.2 = 0)
    (hs : g.w * g.h * g.d ≤ m.size g.fp.1) : Valid m g := by
  intro i j k ⟨h1, h2, h3⟩
  simp only [addr, hf]
  rcases layout_pos hl with hp | hp
  · rw [hp]
    have := digit_lt h1 (digit_lt h2 h3)
    rw [← Nat.mul_assoc] at this
    omega
  · rw [hp]
    have := digit_lt h3 (digit_lt h1 h2)
    rw [Nat.mul_comm g.d (g.w * g.h)] at this
    generalize k + g.d * (i + g.w * j) = q at *
    omega

/-- Images that own a block of exactly their size: built by the allocating constructor or by a `set_size`
    that changed the dimensions; kept by sharing, by `set_size` to the same dimensions, and by any later
    allocation or write. -/
inductive Owned : Mem B → Img → Prop where
  | ctor (m : Mem B) (u : Int → B) (w h d : Nat) (il : Bool) : w * h * d < sizeMod →
      Owned (mkImage m u w h d il).1 (mkImage m u w h d il).2
  | resize (m : Mem B) (u : Int → B) (g : Img) (w h d : Nat) : ¬ (w = g.w ∧ h = g.h ∧ d = g.d) →
      w * h * d < sizeMod → Owned (setSize m u g w h d).1 (setSize m u g w h d).2
  | same {m : Mem B} {g : Img} (u : Int → B) : Owned m g → Owned (setSize m u g g.w g.h g.d).1 (setSize m u g g.w g.h g.d).2
  | share {m : Mem B} {g : Img} : Owned m g → Owned m (share g)
  | later {m m' : Mem B} {g : Img} : Owned m g → (∀ b, m.size b ≤ m'.size b) → Owned m' g

/-- Every image that owns its memory has distinct in-bounds addresses for its pixels. -/
theorem C40_addresses {m : Mem B} {g : Img} (h : Owned m g) : Distinct g ∧ Valid m g := by
  have key : Layout g ∧ g.fp.2 = 0 ∧ g.w * g.h * g.d ≤ m.size g.fp.1 := by
    induction h with
    | ctor m u w h d il hlt =>
      cases il
      · refine ⟨Or.inl ⟨rfl, rfl, rfl⟩, rfl, ?_⟩
        simp [mkImage, alloc, Nat.mod_eq_of_lt hlt]
      · refine ⟨Or.inr ⟨rfl, rfl, rfl⟩, rfl, ?_⟩
        simp [mkImage, alloc, Nat.mod_eq_of_lt hlt]
    | resize m u g w h d hne hlt =>
      unfold setSize
      rw [if_neg hne]
      simp only [alloc]
      refine ⟨?_, trivial, ?_⟩
      · unfold Layout
        by_cases hc : g.ws = 0 ∨ g.ws ≠ (d : Int)
        · left; simp [hc]
        · have hd : g.ws = d := by omega
          by_cases h1 : g.ws = 1
          · left; simp [h1]
          · right
            simp only [if_neg hc, if_neg h1]
            exact ⟨hd, by rw [hd, Int.natCast_mul, Int.mul_comm], trivial⟩
      · simp [Nat.mod_eq_of_lt hlt]
    | same u _ ih => simpa [setSize] using ih
    | share _ ih => exact ih
    | later _ hs ih => exact ⟨ih.1, ih.2.1, Nat.le_trans ih.2.2 (hs _)⟩
  exact ⟨layout_distinct key.1, layout_valid key.1 key.2.1 key.2.2⟩

/-- Without the overflow condition the claim is false of the code: `image(2^32, 2^32)` allocates
    `2^64 mod 2^64 = 0` bytes, and no pixel is inside the allocation. -/
theorem C40_overflow_unsafe (m : Mem B) (u : Int → B) (il : Bool) :
    ¬ Valid (mkImage m u (2 ^ 32) (2 ^ 32) 1 il).1 (mkImage m u (2 ^ 32) (2 ^ 32) 1 il).2 := by
  intro h
  have := (h 0 0 0 (by cases il <;> simp [IsPixel, mkImage, alloc])).2
  revert this
  cases il <;> simp [addr, mkImage, alloc, sizeMod]

/-- Empty memory (only the null block). -/
def mem0 (b : B) : Mem B := ⟨1, fun _ => 0, fun _ _ => b⟩

example : Owned (mkImage (mem0 (0 : Nat)) (fun _ => 7) 3 2 4 true).1 (mkImage (mem0 (0 : Nat)) (fun _ => 7) 3 2 4 true).2 ∧
    addr (mkImage (mem0 (0 : Nat)) (fun _ => 7) 3 2 4 true).2 2 1 3 = (1, 23) :=
  ⟨.ctor _ _ _ _ _ _ (by decide), by decide⟩

/-! ### C41 -/

/-- An access throws `out_of_range` exactly for indices outside the dimensions. -/
theorem C41_throws_iff (m : Mem B) (g : Img) (i j k : Nat) (v : B) :
    (get2 m g i j = .outOfRange ↔ ¬ (i < g.w ∧ j < g.h)) ∧
    (at2 m g i j = .outOfRange ↔ ¬ (i < g.w ∧ j < g.h)) ∧
    (get3 m g i j k = .outOfRange ↔ ¬ IsPixel g i j k) ∧
    (set3 m g i j k v = .outOfRange ↔ ¬ IsPixel g i j k) := by
  have hof : ∀ {α : Type} (o : Option α), Access.ofLoad o ≠ .outOfRange := by
    intro α o; cases o <;> simp [Access.ofLoad]
  unfold IsPixel
  refine ⟨?_, ?_, ?_, ?_⟩
  · unfold get2; split <;> simp [hof] <;> omega
  · unfold at2
    split
    · simp; omega
    · split <;> simp [hof] <;> omega
  · unfold get3; split <;> simp [hof] <;> omega
  · unfold set3; split <;> simp [hof] <;> omega

theorem load_valid {m : Mem B} {g : Img} (hv : Valid m g) {i j k : Nat} (hp : IsPixel g i j k) :
    load m (addr g i j k) = some (pix m g i j k) := by
  unfold load; rw [if_pos (hv i j k hp)]; rfl

/-- In range, accesses to a valid image with at least one channel read the pixel, and `at` returns the
    first channel three times (fewer than three channels) or the first three channels.
    Missing from the full property: images of depth 0, see `C41_depth0_unsafe`. -/
theorem C41_in_bounds_partial {m : Mem B} {g : Img} (hv : Valid m g) {i j : Nat} (hi : i < g.w) (hj : j < g.h)
    (hd : 0 < g.d) :
    get2 m g i j = .ok (pix m g i j 0) ∧ (∀ k, k < g.d → get3 m g i j k = .ok (pix m g i j k)) ∧
    at2 m g i j = .ok (if g.d < 3 then (pix m g i j 0, pix m g i j 0, pix m g i j 0)
      else (pix m g i j 0, pix m g i j 1, pix m g i j 2)) := by
  have e0 : (g.fp.1, g.fp.2 + (g.ws * i + g.hs * j)) = addr g i j 0 := by simp [addr]
  have l0 := load_valid hv (i := i) (j := j) (k := 0) ⟨hi, hj, hd⟩
  refine ⟨?_, ?_, ?_⟩
  · unfold get2; rw [if_neg (by omega), e0, l0]; rfl
  · intro k hk
    unfold get3; rw [if_neg (by omega), load_valid hv ⟨hi, hj, hk⟩]; rfl
  · unfold at2
    rw [if_neg (by omega)]
    by_cases h3 : g.d < 3
    · rw [if_pos h3, if_pos h3, e0, l0]; rfl
    · rw [if_neg h3, if_neg h3, l0, load_valid hv (k := 1) ⟨hi, hj, by omega⟩,
        load_valid hv (k := 2) ⟨hi, hj, by omega⟩]; rfl

/-- Full property: in-range accesses never read outside the memory of an image that owns its memory. -/
def C41_statement : Prop := ∀ (m : Mem Nat) (g : Img), Owned m g → ∀ i j, i < g.w → j < g.h →
  get2 m g i j ≠ .undef ∧ at2 m g i j ≠ .undef

/-- C41 is false of the code for depth 0: the two-index accessors do not look at the depth. -/
theorem C41_depth0_unsafe : ¬ C41_statement := by
  intro h
  have := (h _ _ (.ctor (mem0 0) (fun _ => 0) 2 2 0 false (by decide)) 0 0 (by decide) (by decide)).1
  exact this (by decide)

/-- A write through `operator()` changes that byte and nothing else. -/
theorem C41_write {m : Mem B} {g : Img} (hv : Valid m g) {i j k : Nat} (hp : IsPixel g i j k) (v : B) :
    ∃ m', set3 m g i j k v = .ok m' ∧ pix m' g i j k = v ∧ m'.size = m.size ∧
      ∀ p : Ptr, p ≠ addr g i j k → m'.val p.1 p.2 = m.val p.1 p.2 := by
  obtain ⟨h1, h2, h3⟩ := hp
  have hst : store m (addr g i j k) v = some { m with val := fun b o => if b = (addr g i j k).1 ∧ o = (addr g i j k).2 then v else m.val b o } := by
    unfold store; rw [if_pos (hv i j k ⟨h1, h2, h3⟩)]
  refine ⟨{ m with val := fun b o => if b = (addr g i j k).1 ∧ o = (addr g i j k).2 then v else m.val b o },
    by unfold set3; rw [if_neg (by omega), hst]; rfl, by simp [pix], rfl, ?_⟩
  intro p hp
  show (if p.1 = (addr g i j k).1 ∧ p.2 = (addr g i j k).2 then v else m.val p.1 p.2) = _
  rw [if_neg]; rintro ⟨e1, e2⟩; exact hp (Prod.ext e1 e2)

/-! ### C43 -/

theorem run_cmp [DecidableEq B] {m : Mem B} {a b : Img} (ha : Valid m a) (hb : Valid m b)
    (hw : a.w = b.w) (hh : a.h = b.h) (hd : a.d = b.d) :
    ∀ (l : List (Nat × Nat × Nat)), (∀ t ∈ l, IsPixel a t.2.2 t.2.1 t.1) → ∀ go : Bool,
      run (cmpPixel m a b) l go = some (go && decide (∀ t ∈ l, pix m a t.2.2 t.2.1 t.1 = pix m b t.2.2 t.2.1 t.1)) := by
  intro l
  induction l with
  | nil => intro _ go; simp [run]
  | cons t l ih =>
    intro hl go
    have hp := hl t (by simp)
    obtain ⟨p1, p2, p3⟩ := hp
    unfold run
    cases go
    · simp only [cmpPixel, Bool.false_eq_true, ↓reduceIte]
      rw [ih (fun t ht => hl t (by simp [ht]))]; simp
    · have e1 : get3 m a t.2.2 t.2.1 t.1 = .ok (pix m a t.2.2 t.2.1 t.1) := by
        unfold get3; rw [if_neg (by omega), load_valid ha ⟨p1, p2, p3⟩]; rfl
      have e2 : get3 m b t.2.2 t.2.1 t.1 = .ok (pix m b t.2.2 t.2.1 t.1) := by
        unfold get3; rw [if_neg (by omega), load_valid hb ⟨by omega, by omega, by omega⟩]; rfl
      simp only [cmpPixel, e1, e2, ↓reduceIte]
      rw [ih (fun t ht => hl t (by simp [ht]))]
      simp only [Bool.true_and, List.forall_mem_cons, Bool.decide_and]

/-- Specification: same dimensions and same bytes. -/
def SamePixels (m : Mem B) (a b : Img) : Prop := a.w = b.w ∧ a.h = b.h ∧ a.d = b.d ∧
  ∀ i j k, IsPixel a i j k → pix m a i j k = pix m b i j k

/-- `equal_content` decides pixelwise equality, whatever the memory layouts. -/
theorem C43_equal_content [DecidableEq B] {m : Mem B} {a b : Img} (ha : Valid m a) (hb : Valid m b) :
    ∃ r, equalContent m a b = some r ∧ (r = true ↔ SamePixels m a b) := by
  unfold equalContent
  by_cases hc : a.w ≠ b.w ∨ a.h ≠ b.h ∨ a.d ≠ b.d
  · rw [if_pos hc]
    refine ⟨false, rfl, ?_⟩
    simp only [Bool.false_eq_true, false_iff]
    rintro ⟨h1, h2, h3, _⟩; omega
  · rw [if_neg hc]
    have hw : a.w = b.w := by omega
    have hh : a.h = b.h := by omega
    have hd : a.d = b.d := by omega
    rw [run_cmp ha hb hw hh hd _ (fun t ht => by
      have := mem_triples.1 ht; exact ⟨this.2.2, this.2.1, this.1⟩)]
    refine ⟨_, rfl, ?_⟩
    simp only [Bool.true_and, decide_eq_true_eq]
    constructor
    · intro h
      exact ⟨hw, hh, hd, fun i j k ⟨h1, h2, h3⟩ => h (k, j, i) (mem_triples.2 ⟨h3, h2, h1⟩)⟩
    · rintro ⟨_, _, _, h⟩ t ht
      have := mem_triples.1 ht
      exact h _ _ _ ⟨this.2.2, this.2.1, this.1⟩

/-- `equal_content` is an equivalence relation on valid images. -/
theorem C43_equivalence [DecidableEq B] {m : Mem B} {a b c : Img} (ha : Valid m a) (hb : Valid m b) (hc : Valid m c) :
    equalContent m a a = some true ∧ equalContent m a b = equalContent m b a ∧
    (equalContent m a b = some true → equalContent m b c = some true → equalContent m a c = some true) := by
  obtain ⟨r1, e1, s1⟩ := C43_equal_content ha ha
  obtain ⟨r2, e2, s2⟩ := C43_equal_content ha hb
  obtain ⟨r3, e3, s3⟩ := C43_equal_content hb ha
  obtain ⟨r4, e4, s4⟩ := C43_equal_content hb hc
  obtain ⟨r5, e5, s5⟩ := C43_equal_content ha hc
  have sym : ∀ {x y : Img}, SamePixels m x y → SamePixels m y x := by
    rintro x y ⟨h1, h2, h3, h⟩
    exact ⟨h1.symm, h2.symm, h3.symm, fun i j k ⟨p1, p2, p3⟩ => (h i j k ⟨by omega, by omega, by omega⟩).symm⟩
  refine ⟨?_, ?_, ?_⟩
  · rw [e1, s1.2 ⟨rfl, rfl, rfl, fun _ _ _ _ => rfl⟩]
  · rw [e2, e3]
    congr 1
    rw [Bool.eq_iff_iff, s2, s3]
    exact ⟨sym, sym⟩
  · rw [e2, e4, e5]
    intro h1 h2
    obtain ⟨p1, p2, p3, p⟩ := s2.1 (Option.some.inj h1)
    obtain ⟨q1, q2, q3, q⟩ := s4.1 (Option.some.inj h2)
    congr 1
    rw [s5]
    refine ⟨by omega, by omega, by omega, fun i j k hp => ?_⟩
    obtain ⟨x1, x2, x3⟩ := hp
    rw [p i j k ⟨x1, x2, x3⟩, q i j k ⟨by omega, by omega, by omega⟩]

/-! ### C42 -/

theorem copyPixels {m : Mem B} {a b : Img} (ha : Valid m a) (hda : Distinct a) (hb : Valid m b)
    (hw : a.w = b.w) (hh : a.h = b.h) (hd : a.d = b.d)
    (hdis : ∀ i j k i' j' k', IsPixel a i j k → IsPixel b i' j' k' → addr a i j k ≠ addr b i' j' k') :
    ∃ m', run (copyPixel a b) (triples a.d a.h a.w) m = some m' ∧ m'.size = m.size ∧ m'.next = m.next ∧
      (∀ i j k, IsPixel a i j k → pix m' a i j k = pix m b i j k) ∧
      (∀ p : Ptr, (∀ i j k, IsPixel a i j k → p ≠ addr a i j k) → m'.val p.1 p.2 = m.val p.1 p.2) := by
  have hmem : ∀ t ∈ triples a.d a.h a.w, IsPixel a t.2.2 t.2.1 t.1 := fun t ht => by
    have := mem_triples.1 ht; exact ⟨this.2.2, this.2.1, this.1⟩
  obtain ⟨m', r1, r2, r3, r4, r5⟩ := run_writes (fun t => addr a t.2.2 t.2.1 t.1) (fun t => pix m b t.2.2 t.2.1 t.1)
    (copyPixel a b) (triples a.d a.h a.w) m (nodup_triples _ _ _)
    (by
      intro t ht t' ht' he
      obtain ⟨e1, e2, e3⟩ := hda _ _ _ _ _ _ (hmem t ht) (hmem t' ht') he
      exact Prod.ext e3 (Prod.ext e2 e1))
    (by
      intro m' hs t ht l' hl' _ hval
      obtain ⟨p1, p2, p3⟩ := hmem t ht
      have hpb : IsPixel b t.2.2 t.2.1 t.1 := ⟨by omega, by omega, by omega⟩
      have hl : load m' (addr b t.2.2 t.2.1 t.1) = some (pix m b t.2.2 t.2.1 t.1) := by
        unfold load; rw [if_pos (by rw [hs]; exact hb _ _ _ hpb)]
        congr 1
        exact hval _ (fun t' ht' => (hdis _ _ _ _ _ _ (hmem t' (hl' ht')) hpb).symm)
      unfold copyPixel
      rw [hl]
      simp only [store]
      rw [if_pos (by rw [hs]; exact ha _ _ _ ⟨p1, p2, p3⟩)])
  refine ⟨m', r1, r2, r3, ?_, ?_⟩
  · rintro i j k ⟨h1, h2, h3⟩
    exact r4 (k, j, i) (mem_triples.2 ⟨h3, h2, h1⟩)
  · intro p hp
    exact r5 p (fun t ht => hp _ _ _ (hmem t ht))

/-- Copying into an image whose dimensions differ: new memory is allocated, the copy has the same content
    as the source, every byte that existed before keeps its value (so the source and all other images are
    unchanged), and the copy shares no byte with any image that existed before. -/
theorem C42_copy_realloc [DecidableEq B] {m : Mem B} (u : Int → B) {a b : Img} (hb : Valid m b)
    (hne : ¬ (b.w = a.w ∧ b.h = a.h ∧ b.d = a.d)) (hlt : b.w * b.h * b.d < sizeMod) (hbl : b.fp.1 < m.next) :
    ∃ m' a', copyFrom m u a b = some (m', a') ∧ equalContent m' a' b = some true ∧ Owned m' a' ∧
      (∀ blk o, blk < m.next → m'.val blk o = m.val blk o ∧ m'.size blk = m.size blk) ∧ a'.fp.1 = m.next ∧
      SamePixels m' a' b := by
  have how := Owned.resize m u a b.w b.h b.d hne hlt
  have hset : setSize m u a b.w b.h b.d = ((alloc m (b.w * b.h * b.d % sizeMod) u).1, (setSize m u a b.w b.h b.d).2) := by
    unfold setSize; rw [if_neg hne]
  have hfp : (setSize m u a b.w b.h b.d).2.fp = (m.next, 0) := by unfold setSize; rw [if_neg hne]; rfl
  have hdim : (setSize m u a b.w b.h b.d).2.w = b.w ∧ (setSize m u a b.w b.h b.d).2.h = b.h ∧
      (setSize m u a b.w b.h b.d).2.d = b.d := by
    unfold setSize; rw [if_neg hne]; exact ⟨rfl, rfl, rfl⟩
  generalize hA : (setSize m u a b.w b.h b.d).2 = a1 at *
  generalize hM : (alloc m (b.w * b.h * b.d % sizeMod) u).1 = m1 at *
  rw [hset] at how
  simp only at how
  obtain ⟨hdis, hval⟩ := C40_addresses how
  have hm1 : ∀ blk o, blk < m.next → m1.val blk o = m.val blk o ∧ m1.size blk = m.size blk := by
    intro blk o hlt
    subst hM
    have : blk ≠ m.next := by omega
    simp [alloc, this]
  have hb1 : Valid m1 b := by
    intro i j k hp
    have := hb i j k hp
    rw [(hm1 (addr b i j k).1 0 hbl).2]; exact this
  obtain ⟨m', r1, r2, r3, r4, r5⟩ := copyPixels hval hdis hb1 hdim.1 hdim.2.1 hdim.2.2 (by
    intro i j k i' j' k' _ _ he
    have := congrArg Prod.fst he
    simp only [addr, hfp] at this
    omega)
  have hold : ∀ blk o, blk < m.next → m'.val blk o = m.val blk o ∧ m'.size blk = m.size blk := by
    intro blk o hlt
    refine ⟨?_, by rw [r2]; exact (hm1 blk o hlt).2⟩
    rw [r5 (blk, o) (by intro i j k _ he; have := congrArg Prod.fst he; simp only [addr, hfp] at this; omega)]
    exact (hm1 blk o hlt).1
  have hva : Valid m' a1 := by intro i j k hp; rw [r2]; exact hval i j k hp
  have hvb : Valid m' b := by
    intro i j k hp
    have h1 : m'.size (addr b i j k).1 = m.size (addr b i j k).1 := (hold b.fp.1 0 hbl).2
    rw [h1]; exact hb i j k hp
  have hsame : SamePixels m' a1 b := by
    refine ⟨hdim.1, hdim.2.1, hdim.2.2, fun i j k hp => ?_⟩
    rw [r4 i j k hp]
    unfold pix
    rw [show m1.val (addr b i j k).1 (addr b i j k).2 = m.val (addr b i j k).1 (addr b i j k).2 from (hm1 b.fp.1 _ hbl).1,
      show m'.val (addr b i j k).1 (addr b i j k).2 = m.val (addr b i j k).1 (addr b i j k).2 from (hold b.fp.1 _ hbl).1]
  refine ⟨m', a1, ?_, ?_, .later how (fun blk => by rw [r2]; exact Nat.le_refl _), hold, by rw [hfp], hsame⟩
  · unfold copyFrom; rw [hset]; simp only [r1]
  · obtain ⟨r, e, s⟩ := C43_equal_content hva hvb
    rw [e, s.2 hsame]

/-- Copying into an image of the same dimensions writes the pixels in place: when the target's pixels are
    distinct and disjoint from the source's, the copy has the same content and no other byte changes. -/
theorem C42_copy_in_place [DecidableEq B] {m : Mem B} (u : Int → B) {a b : Img} (ha : Valid m a) (hda : Distinct a)
    (hb : Valid m b) (hdim : b.w = a.w ∧ b.h = a.h ∧ b.d = a.d)
    (hdis : ∀ i j k i' j' k', IsPixel a i j k → IsPixel b i' j' k' → addr a i j k ≠ addr b i' j' k') :
    ∃ m', copyFrom m u a b = some (m', a) ∧ equalContent m' a b = some true ∧ SamePixels m' a b ∧
      (∀ p : Ptr, (∀ i j k, IsPixel a i j k → p ≠ addr a i j k) → m'.val p.1 p.2 = m.val p.1 p.2) ∧
      (∀ i j k, IsPixel b i j k → pix m' b i j k = pix m b i j k) := by
  obtain ⟨m', r1, r2, r3, r4, r5⟩ := copyPixels ha hda hb hdim.1.symm hdim.2.1.symm hdim.2.2.symm hdis
  have hbp : ∀ i j k, IsPixel b i j k → pix m' b i j k = pix m b i j k := fun i j k hp =>
    r5 _ (fun i' j' k' hp' => (hdis i' j' k' i j k hp' hp).symm)
  have hsame : SamePixels m' a b := by
    refine ⟨hdim.1.symm, hdim.2.1.symm, hdim.2.2.symm, fun i j k hp => ?_⟩
    obtain ⟨x1, x2, x3⟩ := hp
    rw [r4 i j k ⟨x1, x2, x3⟩, hbp i j k ⟨by omega, by omega, by omega⟩]
  refine ⟨m', ?_, ?_, hsame, r5, hbp⟩
  · unfold copyFrom setSize; rw [if_pos hdim]; simp only [r1]
  · obtain ⟨r, e, s⟩ := C43_equal_content (m := m') (a := a) (b := b)
      (by intro i j k hp; rw [r2]; exact ha i j k hp) (by intro i j k hp; rw [r2]; exact hb i j k hp)
    rw [e, s.2 hsame]

/-- Overlapping images need the disjointness: copying a window one byte ahead of itself over itself
    repeats the first byte and changes the source. -/
theorem C42_overlap_unsafe : ∃ (m : Mem Nat) (a b : Img) (m' : Mem Nat) (a' : Img), Valid m a ∧ Valid m b ∧ Distinct a ∧
    copyFrom m (fun _ => 0) a b = some (m', a') ∧ ¬ (∀ i j k, IsPixel b i j k → pix m' a' i j k = pix m b i j k) := by
  refine ⟨⟨2, fun _ => 4, fun _ o => o.toNat⟩, mkView none (1, 1) 3 1 1 1 3 3, mkView none (1, 0) 3 1 1 1 3 3, _, _,
    ?_, ?_, ?_, rfl, ?_⟩
  · rintro i j k ⟨h1, h2, h3⟩; simp [mkView, addr] at *; omega
  · rintro i j k ⟨h1, h2, h3⟩; simp [mkView, addr] at *; omega
  · rintro i j k i' j' k' ⟨h1, h2, h3⟩ ⟨h1', h2', h3'⟩ h; simp [mkView, addr] at *; omega
  · intro h
    have := h 2 0 0 ⟨by decide, by decide, by decide⟩
    revert this; decide +kernel

/-! ### C44 -/

/-- The sorted dimensions are a permutation of width, height and depth, so the indeterminate array slots
    are never read; this gives the loop index of each dimension. -/
theorem idx_perm (g : Img) :
    (wIdx g = 0 ∧ hIdx g = 1 ∧ dIdx g = 2) ∨ (wIdx g = 0 ∧ hIdx g = 2 ∧ dIdx g = 1) ∨
    (wIdx g = 1 ∧ hIdx g = 0 ∧ dIdx g = 2) ∨ (wIdx g = 1 ∧ hIdx g = 2 ∧ dIdx g = 0) ∨
    (wIdx g = 2 ∧ hIdx g = 0 ∧ dIdx g = 1) ∨ (wIdx g = 2 ∧ hIdx g = 1 ∧ dIdx g = 0) := by
  unfold wIdx hIdx dIdx bn
  by_cases h1 : g.ws < g.hs <;> by_cases h2 : g.ds < g.hs <;> by_cases h3 : g.ds < g.ws <;>
    simp [h1, h2, h3] <;> omega

/-- Entry `n` of a triple (outermost loop counter first): the counter of loop number `n`. -/
def ctr (t : Nat × Nat × Nat) (n : Nat) : Nat := if n = 2 then t.1 else if n = 1 then t.2.1 else t.2.2

/-- `transform_image` replaces the value of every pixel byte by its image under `op`, exactly once, and
    leaves every other byte alone; the indeterminate array slots never matter. -/
theorem C44_transform {m : Mem B} {g : Img} (hv : Valid m g) (hd : Distinct g) (op : B → B) (jn : Nat) (ji : Int) :
    ∃ m', transformImage m g op jn ji = some m' ∧ m'.size = m.size ∧
      (∀ i j k, IsPixel g i j k → pix m' g i j k = op (pix m g i j k)) ∧
      (∀ p : Ptr, (∀ i j k, IsPixel g i j k → p ≠ addr g i j k) → m'.val p.1 p.2 = m.val p.1 p.2) := by
  -- the pixel visited at loop counters t
  let I := fun t : Nat × Nat × Nat => ctr t (wIdx g)
  let J := fun t : Nat × Nat × Nat => ctr t (hIdx g)
  let K := fun t : Nat × Nat × Nat => ctr t (dIdx g)
  let L := triples (sideLen g jn 2) (sideLen g jn 1) (sideLen g jn 0)
  have hmem : ∀ t, t ∈ L ↔ IsPixel g (I t) (J t) (K t) := by
    intro t
    show t ∈ triples _ _ _ ↔ _
    rw [mem_triples]
    unfold IsPixel sideLen
    show _ ↔ ctr t (wIdx g) < g.w ∧ ctr t (hIdx g) < g.h ∧ ctr t (dIdx g) < g.d
    rcases idx_perm g with ⟨a, b, c⟩ | ⟨a, b, c⟩ | ⟨a, b, c⟩ | ⟨a, b, c⟩ | ⟨a, b, c⟩ | ⟨a, b, c⟩ <;>
      simp [a, b, c, ctr] <;> omega
  have hptr : ∀ t, ((g.fp.1, g.fp.2 + (stepSize g ji 2 * t.1 + stepSize g ji 1 * t.2.1 + stepSize g ji 0 * t.2.2)) : Ptr) =
      addr g (I t) (J t) (K t) := by
    intro t
    unfold addr stepSize
    show (_, _) = (g.fp.1, g.fp.2 + (g.ws * (ctr t (wIdx g) : Nat) + g.hs * (ctr t (hIdx g) : Nat) + g.ds * (ctr t (dIdx g) : Nat)))
    rcases idx_perm g with ⟨a, b, c⟩ | ⟨a, b, c⟩ | ⟨a, b, c⟩ | ⟨a, b, c⟩ | ⟨a, b, c⟩ | ⟨a, b, c⟩ <;>
      simp [a, b, c, ctr] <;> omega
  have hback : ∀ t t', I t = I t' → J t = J t' → K t = K t' → t = t' := by
    intro t t' h1 h2 h3
    obtain ⟨x, y, z⟩ := t
    obtain ⟨x', y', z'⟩ := t'
    revert h1 h2 h3
    show ctr _ (wIdx g) = ctr _ (wIdx g) → ctr _ (hIdx g) = ctr _ (hIdx g) → ctr _ (dIdx g) = ctr _ (dIdx g) → _
    rcases idx_perm g with ⟨a, b, c⟩ | ⟨a, b, c⟩ | ⟨a, b, c⟩ | ⟨a, b, c⟩ | ⟨a, b, c⟩ | ⟨a, b, c⟩ <;>
      simp [a, b, c, ctr] <;> omega
  obtain ⟨m', r1, r2, r3, r4, r5⟩ := run_writes (fun t => addr g (I t) (J t) (K t)) (fun t => op (pix m g (I t) (J t) (K t)))
    (opPixel op g ji) L m (nodup_triples _ _ _)
    (by
      intro t ht t' ht' he
      obtain ⟨e1, e2, e3⟩ := hd _ _ _ _ _ _ ((hmem t).1 ht) ((hmem t').1 ht') he
      exact hback t t' e1 e2 e3)
    (by
      intro m' hs t ht l' hl' hnot hval
      have hp := (hmem t).1 ht
      have hb : 0 ≤ (addr g (I t) (J t) (K t)).2 ∧ (addr g (I t) (J t) (K t)).2 < m'.size (addr g (I t) (J t) (K t)).1 := by
        rw [hs]; exact hv _ _ _ hp
      unfold opPixel
      simp only [hptr]
      have hl : load m' (addr g (I t) (J t) (K t)) = some (pix m g (I t) (J t) (K t)) := by
        unfold load; rw [if_pos hb]
        congr 1
        refine hval _ (fun t' ht' he => ?_)
        obtain ⟨e1, e2, e3⟩ := hd _ _ _ _ _ _ hp ((hmem t').1 (hl' ht')) he
        exact hnot (hback t t' e1 e2 e3 ▸ ht')
      rw [hl]
      simp only [store]
      rw [if_pos hb])
  have hfind : ∀ i j k, IsPixel g i j k → ∃ t ∈ L, I t = i ∧ J t = j ∧ K t = k := by
    intro i j k hp
    have : ∃ t, I t = i ∧ J t = j ∧ K t = k := by
      show ∃ t, ctr t (wIdx g) = i ∧ ctr t (hIdx g) = j ∧ ctr t (dIdx g) = k
      rcases idx_perm g with ⟨a, b, c⟩ | ⟨a, b, c⟩ | ⟨a, b, c⟩ | ⟨a, b, c⟩ | ⟨a, b, c⟩ | ⟨a, b, c⟩
      · exact ⟨(k, j, i), by simp [a, b, c, ctr]⟩
      · exact ⟨(j, k, i), by simp [a, b, c, ctr]⟩
      · exact ⟨(k, i, j), by simp [a, b, c, ctr]⟩
      · exact ⟨(j, i, k), by simp [a, b, c, ctr]⟩
      · exact ⟨(i, k, j), by simp [a, b, c, ctr]⟩
      · exact ⟨(i, j, k), by simp [a, b, c, ctr]⟩
    obtain ⟨t, rfl, rfl, rfl⟩ := this
    exact ⟨t, (hmem t).2 hp, rfl, rfl, rfl⟩
  refine ⟨m', r1, r2, ?_, ?_⟩
  · intro i j k hp
    obtain ⟨t, ht, rfl, rfl, rfl⟩ := hfind i j k hp
    exact r4 t ht
  · intro p hp
    exact r5 p (fun t ht => hp _ _ _ ((hmem t).1 ht))

example : ∃ m', transformImage (mkImage (mem0 0) (fun o => o.toNat) 2 2 3 true).1
    (mkImage (mem0 0) (fun o => o.toNat) 2 2 3 true).2 (· + 100) 0 0 = some m' ∧
    pix m' (mkImage (mem0 0) (fun o => o.toNat) 2 2 3 true).2 1 0 2 = 105 := by
  refine ⟨_, rfl, ?_⟩; decide +kernel

end Vital.Image
