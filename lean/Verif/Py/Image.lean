import Verif.CApi.ImageData
/-
  The Python class `Image` and the Python Imaging Library: vital/bindings/python/vital/image.py (from_pil, get_pil_image) on top of
  vital_image_new_from_data; properties C208 - C210.

  ctypes: functions without `restype` return a C `int`, so widths, depths and steps are truncated to 32 bits.  PIL is modelled by the
  bytes of an image in the order of `tostring()` and by its raw decoder (RawDecode.c): rows `stride` bytes apart, an exception for a
  stride that is smaller than a row (0 means packed rows) and for a buffer that ends before the last row is complete.
  Simplification: the decoder is not asked for images without pixels (hypothesis of the theorems).
-/
namespace Vital.Py.Pic
open Vital.Image Vital.CApi.ImageData

variable {B : Type}

inductive Mode where
  | l
  | rgb
  /-- any other mode of PIL -/
  | other
  deriving DecidableEq

def Mode.bands : Mode → Nat
  | .l => 1
  | .rgb => 3
  | .other => 4

/-- A PIL image: mode, size and the bytes as `tostring()` returns them. -/
structure Pil (B : Type) where
  mode : Mode
  w : Nat
  h : Nat
  bytes : List B
  deriving DecidableEq

/-- The buffer of a Python string, as a new block of memory. -/
def stringBlock [Inhabited B] (m : Mem B) (s : List B) : Mem B × Nat := alloc m s.length (fun o => s.getD o.toNat default)

/-- `none` = undefined behaviour, `some none` = the RuntimeError, otherwise the image. -/
-- models: vital/bindings/python/vital/image.py:66-98 (from_pil); the c_int32 parameters take the low 32 bits
def fromPil [Inhabited B] (m : Mem B) (u : Int → B) (p : Pil B) : Option (Option (Mem B × Img)) :=
  match p.mode with
  | .rgb =>
    let (m1, b) := stringBlock m p.bytes
    (newFromData m1 u (b, 0) p.w p.h 3 (toInt 3) (toInt (p.w * 3)) (toInt (-1))).map some
  | .l =>
    let (m1, b) := stringBlock m p.bytes
    (newFromData m1 u (b, 0) p.w p.h 1 (toInt 1) (toInt p.w) (toInt 0)).map some
  | .other => some none

-- models: vital/types/image.cxx:222-231 (size), through vital_image_size
def imgBytes (m : Mem B) (g : Img) : Nat := match g.data with
  | none => 0
  | some b => m.size b

/-- The raw modes used. -/
inductive Raw where
  | l
  | rgb
  | bgr
  deriving DecidableEq

def Raw.bands : Raw → Nat
  | .l => 1
  | _ => 3

/-- Position in the raw data of the byte for band `c`. -/
def Raw.pos : Raw → Nat → Nat
  | .l, c => c
  | .rgb, c => c
  | .bgr, c => 2 - c

/-- All bytes of the list of addresses; `none` when one of them is outside of its block. -/
def loads (m : Mem B) : List Ptr → Option (List B)
  | [] => some []
  | p :: l => match load m p with
    | none => none
    | some v => match loads m l with
      | none => none
      | some vs => some (v :: vs)

/-- `PIM.frombytes( ..., (w, h), buffer, "raw", raw, stride, 1 )` on the `size` bytes from `fp` on: `none` = a byte outside of the
    block is read, `some none` = ValueError. -/
-- models: PIL (Image.frombytes and RawDecode.c)
def frombytes (m : Mem B) (fp : Ptr) (size : Nat) (mode : Mode) (raw : Raw) (w h : Int) (stride : Int) : Option (Option (Pil B)) :=
  let W := w.toNat
  let H := h.toNat
  if stride ≠ 0 ∧ stride < (W * raw.bands : Nat) then some none
  else
    let st : Nat := if stride = 0 then W * raw.bands else stride.toNat
    if size < (H - 1) * st + W * raw.bands then some none
    else match loads m ((triples H W raw.bands).map fun t => (fp.1, fp.2 + ((t.1 * st + (t.2.1 * raw.bands + raw.pos t.2.2) : Nat) : Int))) with
      | none => none
      | some l => some (some ⟨mode, W, H, l⟩)

/-- `none` = undefined behaviour, `some none` = an exception. -/
-- models: vital/bindings/python/vital/image.py:195-229 (get_pil_image), with the accessors of 133-193: depth(), width(), ... are C ints
def getPil (m : Mem B) (g : Img) : Option (Option (Pil B)) :=
  let size := imgBytes m g
  let width := toInt g.w
  let height := toInt g.h
  if toInt g.d = 3 then
    if toInt g.ds = 1 then frombytes m g.fp size .rgb .bgr width height (toInt g.hs)
    else if toInt g.ds < 0 then frombytes m g.fp size .rgb .rgb width height (toInt g.hs)
    else some none
  else if toInt g.d = 1 then frombytes m g.fp size .l .l width height (toInt g.hs)
  else some none

/-! ### Specification -/

/-- Band `c` of pixel `(x, y)` of a PIL image. -/
def Pil.at (p : Pil B) (x y c : Nat) : Option B := p.bytes[(y * p.w + x) * p.mode.bands + c]?

/-- A well-formed PIL image. -/
def Pil.Ok (p : Pil B) : Prop := p.bytes.length = p.w * p.h * p.mode.bands

/-- The image and the PIL image have the same size, and channel `k` of each pixel is band `d - 1 - k` (vital keeps colour images in
    the order blue, green, red: "convert BGR to RGB", vital/bindings/c/image.cxx:76). -/
def Same (m : Mem B) (g : Img) (p : Pil B) : Prop :=
  p.w = g.w ∧ p.h = g.h ∧ p.mode.bands = g.d ∧
  ∀ x y k v, x < g.w → y < g.h → k < g.d → (get3 m g x y k = .ok v ↔ p.at x y (g.d - 1 - k) = some v)

/-- Sizes that a C int can hold. -/
def Small (w h d : Nat) : Prop := 0 < w ∧ 0 < h ∧ w * h * d < 2 ^ 31

/-! ### Proof -/

theorem small_mul {w h d : Nat} (hs : Small w h d) (hd : 0 < d) : w * d < 2 ^ 31 ∧ w < 2 ^ 31 ∧ h < 2 ^ 31 ∧ d < 2 ^ 31 ∧ w * h < 2 ^ 31 := by
  obtain ⟨hw, hh, hm⟩ := hs
  have a1 : w * d ≤ w * h * d := Nat.mul_le_mul_right _ (Nat.le_mul_of_pos_right _ hh)
  have a2 : w * h ≤ w * h * d := Nat.le_mul_of_pos_right _ hd
  have a3 : w ≤ w * h := Nat.le_mul_of_pos_right _ hh
  have a4 : h ≤ w * h := Nat.le_mul_of_pos_left _ hw
  have a5 : d ≤ w * d := Nat.le_mul_of_pos_left _ hw
  omega

theorem toInt_nat {x : Nat} (h : x < 2 ^ 31) : toInt (x : Int) = x := toInt_id ⟨by omega, by exact_mod_cast h⟩

theorem loads_eq {m : Mem B} {α : Type} (f : α → Ptr) (v : α → B) : ∀ (l : List α), (∀ t ∈ l, load m (f t) = some (v t)) →
    loads m (l.map f) = some (l.map v)
  | [], _ => rfl
  | t :: l, h => by
    simp only [List.map_cons, loads]
    rw [h t (by simp), loads_eq f v l (fun t ht => h t (by simp [ht]))]

/-- Position of a triple in the list of triples. -/
theorem triples_get {α : Type} (n2 n1 n0 : Nat) (f : Nat × Nat × Nat → α) {a b c : Nat} (ha : a < n2) (hb : b < n1) (hc : c < n0) :
    ((triples n2 n1 n0).map f)[(a * n1 + b) * n0 + c]? = some (f (a, b, c)) := by
  have key : ∀ (n k : Nat) (g : Nat → List α) (len : Nat), (∀ i, (g i).length = len) → ∀ i j, i < n → j < len →
      ((List.range' k n).flatMap g)[i * len + j]? = (g (k + i))[j]? := by
    intro n
    induction n with
    | zero => intro k g len _ i j hi; omega
    | succ n ih =>
      intro k g len hl i j hi hj
      rw [List.range'_succ, List.flatMap_cons]
      cases i with
      | zero =>
        rw [List.getElem?_append_left (by rw [hl]; omega)]
        simp
      | succ i =>
        rw [List.getElem?_append_right (by rw [hl, Nat.succ_mul]; omega), hl]
        rw [show (i + 1) * len + j - len = i * len + j by rw [Nat.succ_mul]; omega]
        rw [ih (k + 1) g len hl i j (by omega) hj]
        congr 2; omega
  have len0 : ∀ g : Nat → List α, ∀ len n, (∀ i, (g i).length = len) → ((List.range n).flatMap g).length = n * len := by
    intro g len n hl
    induction n with
    | zero => simp
    | succ n ih => rw [List.range_succ, List.flatMap_append, List.length_append, ih, Nat.succ_mul]; simp [hl]
  unfold triples
  simp only [List.map_flatMap, List.map_map]
  have k1 := key n2 0 (fun a => (List.range n1).flatMap fun b => (List.range n0).map (f ∘ fun c => (a, b, c))) (n1 * n0)
    (fun i => len0 _ n0 n1 (fun i => by simp)) a (b * n0 + c) ha (by
        have : b * n0 + n0 ≤ n1 * n0 := by rw [← Nat.succ_mul]; exact Nat.mul_le_mul_right _ hb
        omega)
  rw [← List.range_eq_range'] at k1
  rw [Nat.add_mul, Nat.add_assoc, Nat.mul_assoc, k1]
  have k2 := key n1 0 (fun b => (List.range n0).map (f ∘ fun c => (0 + a, b, c))) n0 (fun i => by simp) b c hb hc
  rw [← List.range_eq_range'] at k2
  rw [k2]
  simp [hc]

theorem triples_length (a b c : Nat) : (triples a b c).length = a * (b * c) := by
  have len0 : ∀ {α : Type} (g : Nat → List α) (len n : Nat), (∀ i, (g i).length = len) → ((List.range n).flatMap g).length = n * len := by
    intro α g len n hl
    induction n with
    | zero => simp
    | succ n ih => rw [List.range_succ, List.flatMap_append, List.length_append, ih, Nat.succ_mul]; simp [hl]
  unfold triples
  exact len0 _ (b * c) a (fun i => len0 _ c b (fun j => by simp))

/-- The decoder on memory that is all there. -/
theorem frombytes_ok {m : Mem B} {fp : Ptr} {size : Nat} {mode : Mode} {raw : Raw} {w h st : Nat} (hw : 0 < w) (hst : w * raw.bands ≤ st)
    (hsz : (h - 1) * st + w * raw.bands ≤ size) (v : Nat × Nat × Nat → B)
    (hv : ∀ y x c, y < h → x < w → c < raw.bands → load m (fp.1, fp.2 + ((y * st + (x * raw.bands + raw.pos c) : Nat) : Int)) = some (v (y, x, c))) :
    frombytes m fp size mode raw w h st = some (some ⟨mode, w, h, (triples h w raw.bands).map v⟩) := by
  have hb : 0 < raw.bands := by cases raw <;> decide
  have h0 : 0 < w * raw.bands := Nat.mul_pos hw hb
  unfold frombytes
  simp only [Int.toNat_natCast]
  rw [if_neg (by omega), if_neg (show ¬ (st : Int) = 0 by omega), if_neg (by omega)]
  rw [loads_eq _ v]
  intro t ht
  rw [mem_triples] at ht
  exact hv _ _ _ ht.1 ht.2.1 ht.2.2

theorem get3_pix {m : Mem B} {g : Img} {i j k : Nat} (hv : Valid m g) (hp : IsPixel g i j k) : get3 m g i j k = .ok (pix m g i j k) ∧
    load m (addr g i j k) = some (pix m g i j k) := by
  have e : load m (addr g i j k) = some (pix m g i j k) := by unfold load; rw [if_pos (hv _ _ _ hp)]; rfl
  refine ⟨?_, e⟩
  unfold get3
  rw [if_neg (by unfold IsPixel at hp; omega), e]; rfl

/-! ### C208: from_pil -/

theorem fillPixel_size {g : Img} {fp : Ptr} {ws hs ds : Int} {a a' : Mem B} {t : Nat × Nat × Nat} (h : fillPixel g fp ws hs ds a t = some a') : a'.size = a.size := by
  unfold fillPixel at h
  split at h
  · cases h
  · split at h
    · cases h
    · split at h
      · cases h
      · split at h
        · rename_i heq
          cases h
          unfold set3 at heq
          split at heq
          · cases heq
          · generalize hst : store a (addr g t.2.2 t.2.1 t.1) _ = r at heq
            cases r with
            | none => cases heq
            | some r =>
              cases heq
              unfold store at hst
              split at hst
              · cases hst; rfl
              · cases hst
        · cases h

theorem run_size {g : Img} {fp : Ptr} {ws hs ds : Int} : ∀ (l : List (Nat × Nat × Nat)) (a a' : Mem B), run (fillPixel g fp ws hs ds) l a = some a' → a'.size = a.size
  | [], a, a', h => by cases h; rfl
  | t :: l, a, a', h => by
    unfold run at h
    split at h
    · cases h
    · rename_i s' hs'
      rw [run_size l s' a' h, fillPixel_size hs']

/-- The new image is the one of the constructor, and filling it allocates nothing. -/
theorem newFromData_shape {m : Mem B} {u : Int → B} {fp : Ptr} {w h d : Nat} {ws hs ds : Int} {m' : Mem B} {g : Img}
    (e : newFromData m u fp w h d ws hs ds = some (m', g)) : g = (mkImage m u w h d false).2 ∧ m'.size = (mkImage m u w h d false).1.size := by
  unfold newFromData at e
  generalize mkImage m u w h d false = mk at e
  obtain ⟨mm, gg⟩ := mk
  simp only at e
  split at e
  · cases e
  · rename_i m2 hr
    cases e
    exact ⟨rfl, run_size _ _ _ hr⟩

theorem fromPil_new [Inhabited B] (m : Mem B) (u : Int → B) (p : Pil B) (hok : p.Ok) (hm : p.mode ≠ .other) (hs : Small p.w p.h p.mode.bands) :
    ∃ m' g, fromPil m u p = some (some (m', g)) ∧ g.data = some (m.next + 1) ∧ g.fp = (m.next + 1, 0) ∧ g.w = p.w ∧ g.h = p.h ∧ g.d = p.mode.bands ∧
      g.ws = 1 ∧ g.hs = (p.w : Int) ∧ g.ds = ((p.w * p.h : Nat) : Int) ∧ imgBytes m' g = p.w * p.h * p.mode.bands ∧ Owned m' g ∧ Same m' g p ∧
      (∀ b o, b < m.next → m'.val b o = m.val b o) := by
  have hb : 0 < p.mode.bands := by cases p.mode <;> decide
  obtain ⟨s1, s2, s3, s4, s5⟩ := small_mul hs hb
  have hs3 := hs.2.2
  obtain ⟨m1, b, hsb⟩ : ∃ m1 b, stringBlock m p.bytes = (m1, b) := ⟨_, _, rfl⟩
  have hb1 : b = m.next := by have := congrArg Prod.snd hsb; exact this.symm
  have hm1 : m1 = (stringBlock m p.bytes).1 := by rw [hsb]
  have n1 : m1.next = m.next + 1 := by rw [hm1]; rfl
  have z1 : m1.size m.next = p.w * p.h * p.mode.bands := by
    rw [hm1]; simp only [stringBlock, alloc, ↓reduceIte]; exact hok
  have v1 : ∀ o : Nat, m1.val m.next o = p.bytes.getD o default := by
    intro o; rw [hm1]; simp [stringBlock, alloc]
  have vold : ∀ b o, b < m.next → m1.val b o = m.val b o := by
    intro b o hb; rw [hm1]; simp only [stringBlock, alloc]; rw [if_neg (by omega)]
  -- positions of the bytes
  have pos_lt : ∀ x y c, x < p.w → y < p.h → c < p.mode.bands → (y * p.w + x) * p.mode.bands + c < p.w * p.h * p.mode.bands := by
    intro x y c hx hy hc
    have a1 : y * p.w + x + 1 ≤ p.w * p.h := by
      have : (y + 1) * p.w ≤ p.h * p.w := Nat.mul_le_mul_right _ hy
      rw [Nat.succ_mul, Nat.mul_comm p.h] at this
      omega
    have : (y * p.w + x + 1) * p.mode.bands ≤ p.w * p.h * p.mode.bands := Nat.mul_le_mul_right _ a1
    rw [Nat.succ_mul] at this
    omega
  have main : ∀ ds : Int, (∀ x y k, k < p.mode.bands → actual p.mode.bands ((p.w * p.mode.bands : Nat) : Int) ds p.mode.bands x y k =
        (((y * p.w + x) * p.mode.bands + (p.mode.bands - 1 - k) : Nat) : Int)) →
      ∃ m' g, newFromData m1 u (b, 0) p.w p.h p.mode.bands p.mode.bands ((p.w * p.mode.bands : Nat) : Int) ds = some (m', g) ∧
        g.data = some (m.next + 1) ∧ g.fp = (m.next + 1, 0) ∧ g.w = p.w ∧ g.h = p.h ∧ g.d = p.mode.bands ∧
        g.ws = 1 ∧ g.hs = (p.w : Int) ∧ g.ds = ((p.w * p.h : Nat) : Int) ∧ imgBytes m' g = p.w * p.h * p.mode.bands ∧ Owned m' g ∧ Same m' g p ∧
        (∀ b o, b < m.next → m'.val b o = m.val b o) := by
    intro ds hact
    have hlt : p.w * p.h * p.mode.bands < sizeMod := by unfold sizeMod; omega
    have ok : DataOk m1 (b, 0) p.w p.h p.mode.bands p.mode.bands ((p.w * p.mode.bands : Nat) : Int)
        (actual p.mode.bands ((p.w * p.mode.bands : Nat) : Int) ds p.mode.bands) := by
      refine ⟨by rw [n1, hb1]; simp, ?_, ?_⟩
      · intro i j k hi hj hk
        rw [hact i j k hk, hb1, z1]
        have := pos_lt i j (p.mode.bands - 1 - k) hi hj (by omega)
        simp only; omega
      · intro i j k hi hj hk
        have q := pos_lt i j (p.mode.bands - 1 - k) hi hj (by omega)
        have e1 : ((i : Int) * (p.mode.bands : Int)) = ((i * p.mode.bands : Nat) : Int) := by push_cast; rfl
        have e2 : ((j : Int) * ((p.w * p.mode.bands : Nat) : Int)) = ((j * p.w * p.mode.bands : Nat) : Int) := by
          push_cast; rw [Int.mul_assoc]
        have e3 : (j * p.w + i) * p.mode.bands = j * p.w * p.mode.bands + i * p.mode.bands := Nat.add_mul _ _ _
        rw [hact i j k hk, e1, e2]
        unfold FitsInt
        omega
    obtain ⟨m', g, r1, r2, r3, r4, r5, r6, r7⟩ := new_from_data u hlt ok
    obtain ⟨hg, hsz⟩ := newFromData_shape r1
    refine ⟨m', g, r1, ?_, ?_, r2, r3, r4, by rw [hg]; rfl, by rw [hg]; rfl, by rw [hg]; rfl, ?_, r5, ?_, ?_⟩
    · rw [hg]; simp only [mkImage, alloc]; rw [n1]; rfl
    · rw [hg]; simp only [mkImage, alloc]; rw [n1]; rfl
    · have : g.data = some (m.next + 1) := by rw [hg]; simp only [mkImage, alloc]; rw [n1]; rfl
      unfold imgBytes
      rw [this]
      simp only
      rw [hsz]
      simp only [mkImage, alloc, n1]
      simp only [Bool.false_eq_true, ↓reduceIte]
      exact Nat.mod_eq_of_lt hlt
    · refine ⟨r2.symm, r3.symm, r4.symm, fun x y k v hx hy hk => ?_⟩
      rw [r2] at hx; rw [r3] at hy; rw [r4] at hk
      rw [r6 x y k hx hy hk, hact x y k hk, hb1]
      have e0 : ((0 : Int) + (((y * p.w + x) * p.mode.bands + (p.mode.bands - 1 - k) : Nat) : Int)) =
          (((y * p.w + x) * p.mode.bands + (p.mode.bands - 1 - k) : Nat) : Int) := by omega
      simp only [e0]
      rw [v1]
      unfold Pil.at
      rw [r4]
      have q := pos_lt x y (p.mode.bands - 1 - k) hx hy (by omega)
      have q' : (y * p.w + x) * p.mode.bands + (p.mode.bands - 1 - k) < p.bytes.length := by rw [hok]; exact q
      rw [List.getD_eq_getElem?_getD, List.getElem?_eq_getElem q']
      simp
    · intro b' o hb'
      rw [r7 b' o (by omega), vold _ _ hb']
  cases hmode : p.mode with
  | other => exact absurd hmode hm
  | l =>
    rw [hmode] at main hs s1 s4 hs3
    simp only [Mode.bands, Nat.mul_one] at main hs s1 hs3
    obtain ⟨m', g, r1, r2⟩ := main 0 (by
      intro x y k hk
      unfold actual
      rw [if_pos (by omega)]
      have : k = 0 := by omega
      subst this
      push_cast; simp; omega)
    refine ⟨m', g, ?_, ?_⟩
    · unfold fromPil
      rw [hmode]
      simp only [hsb]
      rw [show toInt 1 = 1 from by decide, show toInt 0 = 0 from by decide, toInt_nat s2]
      rw [show ((1 : Nat) : Int) = 1 from rfl] at r1
      rw [r1]; rfl
    · simp only [Mode.bands, Nat.mul_one]; exact r2
  | rgb =>
    rw [hmode] at main hs s1 s4 hs3
    simp only [Mode.bands] at main hs s1 hs3
    obtain ⟨m', g, r1, r2⟩ := main (-1) (by
      intro x y k hk
      unfold actual
      rw [if_neg (by omega)]
      push_cast
      rw [Int.add_mul]
      have : (y : Int) * ((p.w : Int) * 3) = (y : Int) * (p.w : Int) * 3 := (Int.mul_assoc _ _ _).symm
      rw [this]
      omega)
    refine ⟨m', g, ?_, ?_⟩
    · unfold fromPil
      rw [hmode]
      simp only [hsb]
      rw [show toInt 3 = 3 from by decide, show toInt (-1) = -1 from by decide,
        show ((p.w : Int) * 3) = ((p.w * 3 : Nat) : Int) from by push_cast; rfl, toInt_nat s1]
      rw [show ((3 : Nat) : Int) = 3 from rfl] at r1
      rw [r1]; rfl
    · simp only [Mode.bands]; exact r2

/-- `from_pil` of any grey or RGB image: the new image shows the same pixels (colours in the order blue, green, red), owns its memory, and
    nothing that existed before changes; the Python string is not referred to any more. -/
theorem C208_from_pil [Inhabited B] (m : Mem B) (u : Int → B) (p : Pil B) (hok : p.Ok) (hm : p.mode ≠ .other) (hs : Small p.w p.h p.mode.bands) :
    ∃ m' g, fromPil m u p = some (some (m', g)) ∧ Same m' g p ∧ Owned m' g ∧ g.data ≠ some (stringBlock m p.bytes).2 ∧
      ∀ b o, b < m.next → m'.val b o = m.val b o := by
  obtain ⟨m', g, h1, h2, h3, _, _, _, _, _, _, _, h4, h5, h6⟩ := fromPil_new m u p hok hm hs
  refine ⟨m', g, h1, h5, h4, ?_, h6⟩
  rw [h2]
  simp only [stringBlock, alloc]
  intro he
  have := Option.some.inj he
  omega

/-- Other modes are refused. -/
theorem C208_modes [Inhabited B] (m : Mem B) (u : Int → B) (p : Pil B) (hm : p.mode = .other) : fromPil m u p = some none := by
  unfold fromPil; rw [hm]

/-! ### C209: round trip -/

/-- Full property: what `from_pil` takes in, `get_pil_image` gives back. -/
def C209_statement (B : Type) [Inhabited B] : Prop := ∀ (m : Mem B) (u : Int → B) (p : Pil B), p.Ok → p.mode ≠ .other → Small p.w p.h p.mode.bands →
  ∃ m' g, fromPil m u p = some (some (m', g)) ∧ getPil m' g = some (some p)

/-- An RGB image from `from_pil` is planar; `get_pil_image` raises an exception for it. -/
theorem getPil_planar {m : Mem B} {g : Img} (hd : g.d = 3) (hh : g.hs = (g.w : Int)) (hds : g.ds = ((g.w * g.h : Nat) : Int)) (hs : Small g.w g.h 3) :
    getPil m g = some none := by
  obtain ⟨s1, s2, s3, s4, s5⟩ := small_mul hs (by decide)
  have hw := hs.1
  unfold getPil
  simp only [hd, hds, hh, toInt_nat s5, toInt_nat s2]
  rw [if_pos (by decide)]
  split
  · unfold frombytes
    have hc : ((g.w : Int) ≠ 0 ∧ (g.w : Int) < (((g.w : Int).toNat * Raw.bgr.bands : Nat) : Int)) := by
      simp only [Int.toNat_natCast, Raw.bands]; omega
    simp only [if_pos hc]
  · rw [if_neg (by omega)]

/-- False of the code: no RGB image comes back; `get_pil_image` raises an exception. -/
theorem C209_refuted : (∀ {B : Type} [Inhabited B] (m : Mem B) (u : Int → B) (p : Pil B), p.Ok → p.mode = .rgb → Small p.w p.h 3 →
    ∃ m' g, fromPil m u p = some (some (m', g)) ∧ getPil m' g = some none) ∧ ¬ C209_statement Nat := by
  have main : ∀ {B : Type} [Inhabited B] (m : Mem B) (u : Int → B) (p : Pil B), p.Ok → p.mode = .rgb → Small p.w p.h 3 →
      ∃ m' g, fromPil m u p = some (some (m', g)) ∧ getPil m' g = some none := by
    intro B _ m u p hok hmode hs
    obtain ⟨m', g, e1, _, _, e2, e3, e4, _, e8, e5, _⟩ := fromPil_new m u p hok (by rw [hmode]; decide) (by rw [hmode]; exact hs)
    exact ⟨m', g, e1, getPil_planar (by rw [e4, hmode]; rfl) (by rw [e8, e2]) (by rw [e5, e2, e3]) (by rw [e2, e3]; exact hs)⟩
  refine ⟨main, fun h => ?_⟩
  have hok : (⟨.rgb, 1, 2, [1, 2, 3, 4, 5, 6]⟩ : Pil Nat).Ok := rfl
  have hsm : Small 1 2 3 := ⟨by omega, by omega, by omega⟩
  obtain ⟨m', g, e1, e2⟩ := h (mem0 0) (fun _ => 0) ⟨.rgb, 1, 2, [1, 2, 3, 4, 5, 6]⟩ hok (by decide) hsm
  obtain ⟨m2, g2, f1, f2⟩ := main (mem0 0) (fun _ => 0) ⟨.rgb, 1, 2, [1, 2, 3, 4, 5, 6]⟩ hok rfl hsm
  rw [e1] at f1
  cases f1
  rw [e2] at f2
  cases f2

/-! ### C210: get_pil_image -/

/-- Full property: for every image of depth 1 or 3 whose pixels are in memory, `get_pil_image` returns the PIL image with the same pixels. -/
def C210_statement (B : Type) : Prop := ∀ (m : Mem B) (g : Img), Valid m g → Small g.w g.h g.d → g.d = 1 ∨ g.d = 3 →
  ∃ p, getPil m g = some (some p) ∧ p.Ok ∧ Same m g p

/-- The rows of the image are made of adjacent bytes, channel 0 first, and at least that far apart; the rows fit into the image's memory. -/
structure Packed (m : Mem B) (g : Img) : Prop where
  ws : g.ws = g.d
  ds : g.d = 3 → g.ds = 1
  hs : ((g.w * g.d : Nat) : Int) ≤ g.hs
  hs31 : g.hs < 2 ^ 31
  fits : (((g.h - 1) * g.hs.toNat + g.w * g.d : Nat) : Int) ≤ imgBytes m g

/-- What holds: images with packed rows, in particular every image made with `interleave=True`, or with depth 1, by the constructor.
    Missing: views with other steps. -/
theorem C210_partial {m : Mem B} {g : Img} (hv : Valid m g) (hs : Small g.w g.h g.d) (hd : g.d = 1 ∨ g.d = 3) (hp : Packed m g) :
    ∃ p, getPil m g = some (some p) ∧ p.Ok ∧ Same m g p := by
  obtain ⟨s1, s2, s3, s4, s5⟩ := small_mul hs (by omega)
  have hw := hs.1
  obtain ⟨st, hst⟩ : ∃ st : Nat, g.hs = st := ⟨g.hs.toNat, by have := hp.hs; omega⟩
  have hst31 : st < 2 ^ 31 := by have := hp.hs31; rw [hst] at this; omega
  have hrow : g.w * g.d ≤ st := by have := hp.hs; rw [hst] at this; omega
  have hfit : (g.h - 1) * st + g.w * g.d ≤ imgBytes m g := by
    have := hp.fits; rw [hst, Int.toNat_natCast] at this; exact_mod_cast this
  have hws := hp.ws
  have fin : ∀ (raw : Raw) (mode : Mode), raw.bands = g.d → mode.bands = g.d → (∀ c, c < g.d → raw.pos c = g.d - 1 - c) →
      (∀ c, c < g.d → g.ds * ((c : Nat) : Int) = c) →
      ∃ p, frombytes m g.fp (imgBytes m g) mode raw g.w g.h st = some (some p) ∧ p.Ok ∧ Same m g p := by
    intro raw mode hr hmo hpos hds
    refine ⟨_, frombytes_ok hw (by rw [hr]; exact hrow) (by rw [hr]; exact hfit) (fun t => pix m g t.2.1 t.1 (g.d - 1 - t.2.2)) ?_, ?_, ?_⟩
    · intro y x c hy hx hc
      rw [hr] at hc
      have hpix : IsPixel g x y (g.d - 1 - c) := ⟨hx, hy, by omega⟩
      rw [← (get3_pix hv hpix).2]
      congr 1
      unfold addr
      rw [hr, hpos c hc, hws, hst, hds (g.d - 1 - c) (by omega)]
      refine Prod.ext rfl ?_
      simp only
      push_cast
      rw [Int.mul_comm (y : Int), Int.mul_comm (x : Int)]
      omega
    · unfold Pil.Ok
      simp only [List.length_map, triples_length]
      rw [hr, hmo, Nat.mul_left_comm, Nat.mul_assoc]
    · refine ⟨rfl, rfl, hmo, fun x y k v hx hy hk => ?_⟩
      have hpix : IsPixel g x y k := ⟨hx, hy, hk⟩
      rw [(get3_pix hv hpix).1]
      unfold Pil.at
      simp only
      rw [hmo, hr, triples_get _ _ _ _ hy hx (by omega)]
      simp only
      rw [show g.d - 1 - (g.d - 1 - k) = k by omega]
      constructor
      · intro h; cases h; rfl
      · intro h; cases h; rfl
  unfold getPil
  simp only
  rw [toInt_nat s4, toInt_nat s2, toInt_nat s3, hst, toInt_nat hst31]
  rcases hd with hd | hd
  · rw [if_neg (by omega), if_pos (by omega)]
    refine fin .l .l hd.symm hd.symm (fun c hc => ?_) (fun c hc => ?_)
    · have : c = 0 := by omega
      subst this; rw [hd]; rfl
    · have : c = 0 := by omega
      subst this; simp
  · rw [if_pos (by omega), hp.ds hd, if_pos (by decide)]
    refine fin .bgr .rgb hd.symm hd.symm (fun c hc => by rw [hd]; rfl) (fun c hc => by rw [hp.ds hd]; omega)

/-- What holds: grey images come back.  Missing: RGB images. -/
theorem C209_partial [Inhabited B] (m : Mem B) (u : Int → B) (p : Pil B) (hok : p.Ok) (hm : p.mode = .l)
    (hs : Small p.w p.h p.mode.bands) : ∃ m' g, fromPil m u p = some (some (m', g)) ∧ getPil m' g = some (some p) := by
  obtain ⟨m', g, e1, e2, e3, e4, e5, e6, e7, e8, e9, e10, e11, e12, _⟩ := fromPil_new m u p hok (by rw [hm]; decide) hs
  have hd1 : g.d = 1 := by rw [e6, hm]; rfl
  have hb1 : p.mode.bands = 1 := by rw [hm]; rfl
  have s5 := small_mul hs (by rw [hb1]; decide)
  refine ⟨m', g, e1, ?_⟩
  obtain ⟨q, hq, hqok, hq1, hq2, hq3, hq4⟩ : ∃ q, getPil m' g = some (some q) ∧ q.Ok ∧ Same m' g q := by
    refine C210_partial (C40_addresses e11).2 (by rw [e4, e5, e6]; exact hs) (.inl hd1) ⟨by rw [e7, hd1]; rfl, by omega, by rw [e8, e4, hd1]; omega, by rw [e8]; omega, ?_⟩
    rw [e8, e10, e4, e5, hd1, Int.toNat_natCast, hb1]
    have : (p.h - 1) * p.w + p.w * 1 = p.w * p.h * 1 := by
      obtain ⟨k, hk⟩ : ∃ k, p.h = k + 1 := ⟨p.h - 1, by have := hs.2.1; omega⟩
      rw [hk, Nat.add_sub_cancel, Nat.mul_one, Nat.mul_one, Nat.mul_succ, Nat.mul_comm]
    rw [this]; omega
  rw [hq]
  obtain ⟨hp1, hp2, hp3, hp4⟩ := e12
  have hqb : q.mode.bands = 1 := by rw [hq3, hd1]
  have hqm : q.mode = .l := by cases h : q.mode <;> rw [h] at hqb <;> first | rfl | (exact absurd hqb (by decide))
  have hv := (C40_addresses e11).2
  have hbytes : q.bytes = p.bytes := by
    apply List.ext_getElem?
    intro n
    by_cases hn : n < p.w * p.h
    · have hx : n % p.w < g.w := by rw [e4]; exact Nat.mod_lt _ hs.1
      have hy : n / p.w < g.h := by rw [e5]; exact Nat.div_lt_of_lt_mul hn
      have hpix : IsPixel g (n % p.w) (n / p.w) 0 := ⟨hx, hy, by omega⟩
      have r1 := (hq4 _ _ 0 _ hx hy (by omega)).1 (get3_pix hv hpix).1
      have r2 := (hp4 _ _ 0 _ hx hy (by omega)).1 (get3_pix hv hpix).1
      unfold Pil.at at r1 r2
      rw [hqb, hq1, e4, hd1] at r1
      rw [hb1, hd1] at r2
      have en : n / p.w * p.w + n % p.w = n := Nat.div_add_mod' n p.w
      rw [en] at r1 r2
      simp only [Nat.mul_one, Nat.sub_self, Nat.add_zero] at r1 r2
      rw [r1, r2]
    · rw [List.getElem?_eq_none, List.getElem?_eq_none]
      · unfold Pil.Ok at hok; rw [hok, hb1]; omega
      · unfold Pil.Ok at hqok; rw [hqok, hqb, hq1, hq2, e4, e5]; omega
  cases p; cases q
  simp only at *
  rw [hq1, hq2, hqm, hbytes, e4, e5, hm]

/-- One channel of an interleaved colour image, as a view: the bytes of the other channels show up in the PIL image. -/
def chan : Img := ⟨some 1, (1, 0), 2, 1, 1, 3, 6, 1⟩

/-- A view with the channels reversed: `get_pil_image` reads past the end of the image. -/
def flip : Img := ⟨some 1, (1, 2), 2, 1, 3, 3, 6, -1⟩

/-- False of the code: a single-channel view of an interleaved image yields wrong pixels, a view with reversed channels is read
    beyond its memory, and planar colour images are refused. -/
theorem C210_refuted : ¬ C210_statement Nat ∧
    (Valid rgb chan ∧ getPil rgb chan = some (some ⟨.l, 2, 1, [10, 11]⟩) ∧ get3 rgb chan 1 0 0 = .ok 13) ∧
    (Valid rgb flip ∧ getPil rgb flip = none) := by
  have v1 : Valid rgb chan := by
    intro i j k ⟨hi, hj, hk⟩
    simp only [chan, addr, rgb] at *
    have : j = 0 := by omega
    have : k = 0 := by omega
    subst j; subst k
    simp; omega
  have v2 : Valid rgb flip := by
    intro i j k ⟨hi, hj, hk⟩
    simp only [flip, addr, rgb] at *
    have : j = 0 := by omega
    subst j
    simp; omega
  have e1 : getPil rgb chan = some (some ⟨.l, 2, 1, [10, 11]⟩) := by decide +kernel
  have e2 : getPil rgb flip = none := by decide +kernel
  refine ⟨fun h => ?_, ⟨v1, e1, by decide +kernel⟩, v2, e2⟩
  obtain ⟨p, hp, _⟩ := h rgb flip v2 ⟨by decide, by decide, by simp [flip]⟩ (.inr rfl)
  rw [e2] at hp
  cases hp

/-- An interleaved image of the constructor satisfies the hypotheses. -/
example : Packed (mkImage (mem0 (0 : Nat)) (fun o => o.toNat) 2 2 3 true).1 (mkImage (mem0 (0 : Nat)) (fun o => o.toNat) 2 2 3 true).2 ∧
    getPil (mkImage (mem0 (0 : Nat)) (fun o => o.toNat) 2 2 3 true).1 (mkImage (mem0 (0 : Nat)) (fun o => o.toNat) 2 2 3 true).2 =
      some (some ⟨.rgb, 2, 2, [2, 1, 0, 5, 4, 3, 8, 7, 6, 11, 10, 9]⟩) :=
  ⟨⟨by decide, by decide, by decide, by decide, by decide⟩, by decide +kernel⟩

example : (⟨.rgb, 2, 1, [10, 11, 12, 13, 14, 15]⟩ : Pil Nat).Ok ∧
    ((fromPil (mem0 0) (fun _ => 0) (⟨.rgb, 2, 1, [10, 11, 12, 13, 14, 15]⟩ : Pil Nat)).map fun r => r.map fun q => get3 q.1 q.2 1 0 0) = some (some (.ok 15)) :=
  ⟨rfl, by decide +kernel⟩

end Vital.Py.Pic
