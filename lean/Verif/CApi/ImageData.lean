import Verif.Types.Image
/-
  Model of vital_image_new_from_data (vital/bindings/c/image.cxx:70-99); property C127.
  Indices are computed in C `unsigned int` / `int` arithmetic; conversion of an out-of-range value to `int`
  wraps (implementation defined), overflow of the final additions is undefined behaviour (`none`).
  Simplifications: `unsigned` loop counters do not wrap (dimensions below 2^32); the negation of
  d_step = -2^31, undefined in C, is not treated specially.
-/
namespace Vital.CApi.ImageData
open Vital.Image

variable {B : Type}

/-- Value of a 64- or 32-bit unsigned result converted to `int` (32 bits, two's complement). -/
def toInt (x : Int) : Int := (x + 2 ^ 31) % 2 ^ 32 - 2 ^ 31

/-- `a + b` in `int`; overflow is undefined. -/
def addInt (a b : Int) : Option Int := if -2 ^ 31 ≤ a + b ∧ a + b < 2 ^ 31 then some (a + b) else none

-- models: vital/bindings/c/image.cxx:77-87 (d_idx)
def dIndex (depth : Nat) (dStep : Int) (d : Nat) : Int :=
  if dStep ≥ 0 then toInt (d * dStep) else toInt (((depth - d - 1 : Nat) : Int) * (-dStep))

-- models: vital/bindings/c/image.cxx:89-95 (innermost statement); the checked access of the new image
-- cannot throw, as the loops stay inside its dimensions
def fillPixel (g : Img) (fp : Ptr) (wStep hStep dStep : Int) (m : Mem B) (t : Nat × Nat × Nat) : Option (Mem B) :=
  match addInt (toInt (t.2.2 * wStep)) (toInt (t.2.1 * hStep)) with
  | none => none
  | some x => match addInt x (dIndex g.d dStep t.1) with
    | none => none
    | some idx => match load m (fp.1, fp.2 + idx) with
      | none => none
      | some v => match set3 m g t.2.2 t.2.1 t.1 v with
        | .ok m' => some m'
        | _ => none

-- models: vital/bindings/c/image.cxx:70-99 (vital_image_new_from_data)
def newFromData (m : Mem B) (u : Int → B) (fp : Ptr) (w h d : Nat) (wStep hStep dStep : Int) : Option (Mem B × Img) :=
  let (m1, g) := mkImage m u w h d false
  match run (fillPixel g fp wStep hStep dStep) (triples d h w) m1 with
  | none => none
  | some m2 => some (m2, g)

/-! ### Specification -/

/-- `x` is representable as `int`. -/
def FitsInt (x : Int) : Prop := -2 ^ 31 ≤ x ∧ x < 2 ^ 31

/-- Byte offset from `first_pixel` of channel `k` of pixel `(i, j)`, as the header documents it. -/
def documented (ws hs ds : Int) (i j k : Nat) : Int := i * ws + j * hs + k * ds

/-- Byte offset actually read: for a negative plane step the planes are taken from the last one down,
    `first_pixel` being the lowest address. -/
def actual (ws hs ds : Int) (depth i j k : Nat) : Int :=
  i * ws + j * hs + (if 0 ≤ ds then k * ds else ((depth - 1 - k : Nat) : Int) * (-ds))

/-- The caller's data: the block of `fp` exists, every byte at the offsets `off` is inside it, and the
    offsets and partial sums fit into `int`. -/
structure DataOk (m : Mem B) (fp : Ptr) (w h d : Nat) (ws hs : Int) (off : Nat → Nat → Nat → Int) : Prop where
  old : fp.1 < m.next
  inside : ∀ i j k, i < w → j < h → k < d → 0 ≤ fp.2 + off i j k ∧ fp.2 + off i j k < m.size fp.1
  fits : ∀ i j k, i < w → j < h → k < d → FitsInt (i * ws) ∧ FitsInt (j * hs) ∧ FitsInt (i * ws + j * hs) ∧
    FitsInt (off i j k - (i * ws + j * hs)) ∧ FitsInt (off i j k)

theorem toInt_id {x : Int} (h : FitsInt x) : toInt x = x := by
  unfold FitsInt at h; unfold toInt; omega

theorem addInt_ok {a b : Int} (h : FitsInt (a + b)) : addInt a b = some (a + b) := by
  unfold FitsInt at h; unfold addInt; rw [if_pos h]

/-- What the call does, for every plane step. -/
theorem new_from_data {m : Mem B} (u : Int → B) {fp : Ptr} {w h d : Nat} {ws hs ds : Int} (hlt : w * h * d < sizeMod)
    (ok : DataOk m fp w h d ws hs (actual ws hs ds d)) :
    ∃ m' g, newFromData m u fp w h d ws hs ds = some (m', g) ∧ g.w = w ∧ g.h = h ∧ g.d = d ∧ Owned m' g ∧
      (∀ i j k, i < w → j < h → k < d → get3 m' g i j k = .ok (m.val fp.1 (fp.2 + actual ws hs ds d i j k))) ∧
      (∀ b o, b < m.next → m'.val b o = m.val b o) := by
  have hown := Owned.ctor m u w h d false hlt
  obtain ⟨hdist, hvalid⟩ := C40_addresses hown
  generalize hg : (mkImage m u w h d false).2 = g at *
  generalize hm : (mkImage m u w h d false).1 = m1 at *
  have gw : g.w = w := by rw [← hg]; rfl
  have gh : g.h = h := by rw [← hg]; rfl
  have gd : g.d = d := by rw [← hg]; rfl
  have gp : ∀ i j k, (addr g i j k).1 = m.next := by intro i j k; rw [← hg]; rfl
  have size_old : m1.size fp.1 = m.size fp.1 := by
    rw [← hm]; simp only [mkImage, alloc, Bool.false_eq_true, ↓reduceIte]
    rw [if_neg (by have := ok.old; omega)]
  have val_old : ∀ b o, b < m.next → m1.val b o = m.val b o := by
    intro b o hb; rw [← hm]; simp only [mkImage, alloc, Bool.false_eq_true, ↓reduceIte]
    rw [if_neg (by omega)]
  have hrun := run_writes (B := B) (fun t => addr g t.2.2 t.2.1 t.1)
    (fun t => m.val fp.1 (fp.2 + actual ws hs ds d t.2.2 t.2.1 t.1)) (fillPixel g fp ws hs ds)
    (triples d h w) m1 (nodup_triples _ _ _)
    (by
      intro t ht t' ht' he
      rw [mem_triples] at ht ht'
      obtain ⟨e1, e2, e3⟩ := hdist t.2.2 t.2.1 t.1 t'.2.2 t'.2.1 t'.1 ⟨by omega, by omega, by omega⟩
        ⟨by omega, by omega, by omega⟩ he
      exact Prod.ext e3 (Prod.ext e2 e1))
    (by
      intro m' hsz t ht l' hl' _ hval
      rw [mem_triples] at ht
      obtain ⟨t1, t2, t3⟩ := ht
      obtain ⟨f1, f2, f3, f4, f5⟩ := ok.fits t.2.2 t.2.1 t.1 t3 t2 t1
      have hd : dIndex g.d ds t.1 = actual ws hs ds d t.2.2 t.2.1 t.1 - (t.2.2 * ws + t.2.1 * hs) := by
        have e : actual ws hs ds d t.2.2 t.2.1 t.1 - (t.2.2 * ws + t.2.1 * hs) =
            (if 0 ≤ ds then t.1 * ds else ((d - 1 - t.1 : Nat) : Int) * (-ds)) := by unfold actual; omega
        rw [e] at f4 ⊢
        unfold dIndex
        by_cases hds : 0 ≤ ds
        · rw [if_pos hds] at f4 ⊢
          rw [if_pos hds, toInt_id f4]
        · rw [if_neg hds] at f4 ⊢
          rw [if_neg hds, gd, show d - t.1 - 1 = d - 1 - t.1 by omega, toInt_id f4]
      have ha1 := addInt_ok f3
      have ha2 : addInt (t.2.2 * ws + t.2.1 * hs) (dIndex g.d ds t.1) = some (actual ws hs ds d t.2.2 t.2.1 t.1) := by
        rw [hd, addInt_ok (by rw [show t.2.2 * ws + t.2.1 * hs + (actual ws hs ds d t.2.2 t.2.1 t.1 -
          (t.2.2 * ws + t.2.1 * hs)) = actual ws hs ds d t.2.2 t.2.1 t.1 by omega]; exact f5)]
        congr 1; omega
      have hin := ok.inside t.2.2 t.2.1 t.1 t3 t2 t1
      have hload : load m' (fp.1, fp.2 + actual ws hs ds d t.2.2 t.2.1 t.1) =
          some (m.val fp.1 (fp.2 + actual ws hs ds d t.2.2 t.2.1 t.1)) := by
        unfold load
        rw [hsz, size_old, if_pos hin]
        have hne : ∀ t' ∈ l', ((fp.1, fp.2 + actual ws hs ds d t.2.2 t.2.1 t.1) : Ptr) ≠ addr g t'.2.2 t'.2.1 t'.1 := by
          intro t' _ he
          have := congrArg Prod.fst he
          rw [gp] at this
          have := ok.old
          simp at *
          omega
        have := hval (fp.1, fp.2 + actual ws hs ds d t.2.2 t.2.1 t.1) hne
        simp only at this
        rw [this, val_old _ _ ok.old]
      have hpix : IsPixel g t.2.2 t.2.1 t.1 := ⟨by omega, by omega, by omega⟩
      have hstore : ∀ v, set3 m' g t.2.2 t.2.1 t.1 v = .ok { m' with val := fun b o =>
          if b = (addr g t.2.2 t.2.1 t.1).1 ∧ o = (addr g t.2.2 t.2.1 t.1).2 then v else m'.val b o } := by
        intro v
        unfold set3
        rw [if_neg (by unfold IsPixel at hpix; omega)]
        unfold store
        rw [hsz, if_pos (hvalid _ _ _ hpix)]
        rfl
      unfold fillPixel
      rw [toInt_id f1, toInt_id f2, ha1]
      simp only
      rw [ha2]
      simp only
      rw [hload]
      simp only
      rw [hstore])
  obtain ⟨m2, r1, r2, r3, r4, r5⟩ := hrun
  refine ⟨m2, g, ?_, gw, gh, gd, hown.later (fun b => by rw [r2]; exact Nat.le_refl _), ?_, ?_⟩
  · unfold newFromData
    rw [show mkImage m u w h d false = (m1, g) from Prod.ext hm hg]
    simp only [r1]
  · intro i j k hi hj hk
    have hpix : IsPixel g i j k := ⟨by omega, by omega, by omega⟩
    unfold get3
    rw [if_neg (by unfold IsPixel at hpix; omega)]
    unfold load
    rw [r2, if_pos (hvalid _ _ _ hpix)]
    have := r4 (k, j, i) (by rw [mem_triples]; exact ⟨hk, hj, hi⟩)
    simp only at this
    rw [this]; rfl
  · intro b o hb
    have := r5 (b, o) (fun t _ he => by
      have := congrArg Prod.fst he
      simp only at this
      rw [gp] at this
      omega)
    simp only at this
    rw [this, val_old _ _ hb]

/-- Full property: the new image holds, at pixel `(i, j)` channel `k`, the byte at
    `first_pixel + i * w_step + j * h_step + k * d_step`. -/
def C127_statement (B : Type) : Prop := ∀ (m : Mem B) (u : Int → B) (fp : Ptr) (w h d : Nat) (ws hs ds : Int),
  w * h * d < sizeMod → DataOk m fp w h d ws hs (documented ws hs ds) →
  ∃ m' g, newFromData m u fp w h d ws hs ds = some (m', g) ∧
    ∀ i j k, i < w → j < h → k < d → get3 m' g i j k = .ok (m.val fp.1 (fp.2 + documented ws hs ds i j k))

/-- Two planes of one byte each, stored as 7 (plane 1) then 8 (plane 0): first pixel at offset 1, plane step -1. -/
def bgr : Mem Nat := ⟨2, fun b => if b = 1 then 2 else 0, fun _ o => if o = 0 then 7 else 8⟩

/-- False of the code for negative plane steps: the call reads past the caller's data instead. -/
theorem C127_refuted : ¬ C127_statement Nat ∧ newFromData bgr (fun _ => 0) (1, 1) 1 1 2 1 1 (-1) = none := by
  have e : newFromData bgr (fun _ => 0) (1, 1) 1 1 2 1 1 (-1) = none := rfl
  refine ⟨fun hs => ?_, e⟩
  obtain ⟨m', g, h1, _⟩ := hs bgr (fun _ => 0) (1, 1) 1 1 2 1 1 (-1) (by decide) (by
    refine ⟨by decide, ?_, ?_⟩
    · intro i j k hi hj hk
      simp only [documented, bgr]
      have : i = 0 := by omega
      have : j = 0 := by omega
      subst i; subst j
      simp
      omega
    · intro i j k hi hj hk
      have : i = 0 := by omega
      have : j = 0 := by omega
      subst i; subst j
      simp only [documented, FitsInt]
      omega)
  rw [e] at h1
  cases h1

/-- What holds: with a plane step that is not negative, the image is the documented copy, owns its memory,
    and the caller's memory is untouched.  Missing: negative plane steps. -/
theorem C127_partial {m : Mem B} (u : Int → B) {fp : Ptr} {w h d : Nat} {ws hs ds : Int} (hds : 0 ≤ ds)
    (hlt : w * h * d < sizeMod) (ok : DataOk m fp w h d ws hs (documented ws hs ds)) :
    ∃ m' g, newFromData m u fp w h d ws hs ds = some (m', g) ∧ g.w = w ∧ g.h = h ∧ g.d = d ∧ Owned m' g ∧
      (∀ i j k, i < w → j < h → k < d → get3 m' g i j k = .ok (m.val fp.1 (fp.2 + documented ws hs ds i j k))) ∧
      (∀ b o, b < m.next → m'.val b o = m.val b o) := by
  have e : actual ws hs ds d = documented ws hs ds := by
    funext i j k; unfold actual documented; rw [if_pos hds]
  have := new_from_data u hlt (e ▸ ok)
  rw [e] at this
  exact this

/-- For a negative plane step (data ending at `first_pixel + (depth-1)·|d_step|`) the channels come out in
    reverse order: the documented use, BGR data becoming RGB. -/
theorem C127_reversed {m : Mem B} (u : Int → B) {fp : Ptr} {w h d : Nat} {ws hs ds : Int} (hds : ds < 0)
    (hlt : w * h * d < sizeMod)
    (ok : DataOk m fp w h d ws hs (fun i j k => documented ws hs (-ds) i j (d - 1 - k))) :
    ∃ m' g, newFromData m u fp w h d ws hs ds = some (m', g) ∧
      (∀ i j k, i < w → j < h → k < d →
        get3 m' g i j k = .ok (m.val fp.1 (fp.2 + documented ws hs (-ds) i j (d - 1 - k)))) ∧
      (∀ b o, b < m.next → m'.val b o = m.val b o) := by
  have e : actual ws hs ds d = fun i j k => documented ws hs (-ds) i j (d - 1 - k) := by
    funext i j k; unfold actual documented; rw [if_neg (by omega)]
  obtain ⟨m', g, h1, _, _, _, _, h2, h3⟩ := new_from_data u hlt (e ▸ ok)
  rw [e] at h2
  exact ⟨m', g, h1, h2, h3⟩

/-- Two pixels of interleaved three-channel data. -/
def rgb : Mem Nat := ⟨2, fun b => if b = 1 then 6 else 0, fun _ o => o.toNat + 10⟩

theorem rgb_ok : DataOk rgb (1, 0) 2 1 3 3 6 (documented 3 6 1) ∧
    DataOk rgb (1, 0) 2 1 3 3 6 (fun i j k => documented 3 6 (-(-1)) i j (3 - 1 - k)) := by
  constructor
  all_goals
    refine ⟨by decide, ?_, ?_⟩ <;> intro i j k hi hj hk <;> simp only [documented, rgb, FitsInt] <;> simp <;> omega

example : (newFromData rgb (fun _ => 0) (1, 0) 2 1 3 3 6 1).map (fun r => get3 r.1 r.2 1 0 2) = some (.ok 15) ∧
    (newFromData rgb (fun _ => 0) (1, 0) 2 1 3 3 6 (-1)).map (fun r => get3 r.1 r.2 1 0 2) = some (.ok 13) := by
  decide +kernel

end Vital.CApi.ImageData
