/-
  Model of vital/kwiversys/Base64.c; properties C49, C50, C70.
  Bytes are 8-bit vectors.  `(x << 4) & 0x30` etc. are computed on `int` in C; because of the masks this
  is the same on 8 bits.  Reading past the end of the input is modelled by `none`.
-/
namespace Vital.Base64

abbrev Byte := BitVec 8

-- models: vital/kwiversys/Base64.c:22-25 (kwsysBase64EncodeTable)
def encodeTable : List Byte :=
  [65, 66, 67, 68, 69, 70, 71, 72, 73, 74, 75, 76, 77, 78, 79, 80, 81, 82, 83, 84, 85, 86, 87, 88, 89, 90,
   97, 98, 99, 100, 101, 102, 103, 104, 105, 106, 107, 108, 109, 110, 111, 112, 113, 114, 115, 116, 117, 118,
   119, 120, 121, 122, 48, 49, 50, 51, 52, 53, 54, 55, 56, 57, 43, 47]

-- models: vital/kwiversys/Base64.c:28-65 (kwsysBase64DecodeTable)
def decodeTable : List Byte :=
  [255, 255, 255, 255, 255, 255, 255, 255, 255, 255, 255, 255, 255, 255, 255, 255,
   255, 255, 255, 255, 255, 255, 255, 255, 255, 255, 255, 255, 255, 255, 255, 255,
   255, 255, 255, 255, 255, 255, 255, 255, 255, 255, 255, 62, 255, 255, 255, 63,
   52, 53, 54, 55, 56, 57, 58, 59, 60, 61, 255, 255, 255, 0, 255, 255,
   255, 0, 1, 2, 3, 4, 5, 6, 7, 8, 9, 10, 11, 12, 13, 14,
   15, 16, 17, 18, 19, 20, 21, 22, 23, 24, 25, 255, 255, 255, 255, 255,
   255, 26, 27, 28, 29, 30, 31, 32, 33, 34, 35, 36, 37, 38, 39, 40,
   41, 42, 43, 44, 45, 46, 47, 48, 49, 50, 51, 255, 255, 255, 255, 255,
   255, 255, 255, 255, 255, 255, 255, 255, 255, 255, 255, 255, 255, 255, 255, 255,
   255, 255, 255, 255, 255, 255, 255, 255, 255, 255, 255, 255, 255, 255, 255, 255,
   255, 255, 255, 255, 255, 255, 255, 255, 255, 255, 255, 255, 255, 255, 255, 255,
   255, 255, 255, 255, 255, 255, 255, 255, 255, 255, 255, 255, 255, 255, 255, 255,
   255, 255, 255, 255, 255, 255, 255, 255, 255, 255, 255, 255, 255, 255, 255, 255,
   255, 255, 255, 255, 255, 255, 255, 255, 255, 255, 255, 255, 255, 255, 255, 255,
   255, 255, 255, 255, 255, 255, 255, 255, 255, 255, 255, 255, 255, 255, 255, 255,
   255, 255, 255, 255, 255, 255, 255, 255, 255, 255, 255, 255, 255, 255, 255, 255]

/-- The character '='. -/
def pad : Byte := 61

-- models: vital/kwiversys/Base64.c:68-71 (entry 64 of the table is the terminating NUL; larger indices do
-- not occur because every caller masks with 0x3F)
def encodeChar (c : Byte) : Byte := encodeTable.getD c.toNat 0

-- models: vital/kwiversys/Base64.c:74-77
def decodeChar (c : Byte) : Byte := decodeTable.getD c.toNat 0

-- models: vital/kwiversys/Base64.c:81-87 (kwsysBase64_Encode3)
def encode3 (s0 s1 s2 : Byte) : List Byte :=
  [encodeChar ((s0 >>> 2) &&& 0x3F#8), encodeChar (((s0 <<< 4) &&& 0x30#8) ||| ((s1 >>> 4) &&& 0x0F#8)),
   encodeChar (((s1 <<< 2) &&& 0x3C#8) ||| ((s2 >>> 6) &&& 0x03#8)), encodeChar (s2 &&& 0x3F#8)]

-- models: vital/kwiversys/Base64.c:91-97 (kwsysBase64_Encode2)
def encode2 (s0 s1 : Byte) : List Byte :=
  [encodeChar ((s0 >>> 2) &&& 0x3F#8), encodeChar (((s0 <<< 4) &&& 0x30#8) ||| ((s1 >>> 4) &&& 0x0F#8)),
   encodeChar ((s1 <<< 2) &&& 0x3C#8), pad]

-- models: vital/kwiversys/Base64.c:101-107 (kwsysBase64_Encode1)
def encode1 (s0 : Byte) : List Byte :=
  [encodeChar ((s0 >>> 2) &&& 0x3F#8), encodeChar ((s0 <<< 4) &&& 0x30#8), pad, pad]

-- models: vital/kwiversys/Base64.c:121-164 (kwsysBase64_Encode)
def encode (markEnd : Bool) : List Byte → List Byte
  | a :: b :: c :: rest => encode3 a b c ++ encode markEnd rest
  | [a, b] => encode2 a b
  | [a] => encode1 a
  | [] => if markEnd then [pad, pad, pad, pad] else []

-- models: vital/kwiversys/Base64.c:168-202 (kwsysBase64_Decode3): return value and the bytes written to dest
def decode3 (c0 c1 c2 c3 : Byte) : Nat × Byte × Byte × Byte :=
  let d0 := decodeChar c0
  let d1 := decodeChar c1
  let d2 := decodeChar c2
  let d3 := decodeChar c3
  if d0 = 0xFF#8 ∨ d1 = 0xFF#8 ∨ d2 = 0xFF#8 ∨ d3 = 0xFF#8 then (0, 0, 0, 0)
  else
    let o0 := ((d0 <<< 2) &&& 0xFC#8) ||| ((d1 >>> 4) &&& 0x03#8)
    let o1 := ((d1 <<< 4) &&& 0xF0#8) ||| ((d2 >>> 2) &&& 0x0F#8)
    let o2 := ((d2 <<< 6) &&& 0xC0#8) ||| (d3 &&& 0x3F#8)
    (if c2 = pad then 1 else if c3 = pad then 2 else 3, o0, o1, o2)

/-- The first `n` of the three decoded bytes. -/
def firstN (n : Nat) (r : Byte × Byte × Byte) : List Byte := [r.1, r.2.1, r.2.2].take n

-- models: vital/kwiversys/Base64.c:224-237 (loop bounded by max_input_length: 4 characters are read as long
-- as at least one is left)
def decodeMax : Nat → List Byte → Option (List Byte)
  | 0, _ => some []
  | n + 4, c0 :: c1 :: c2 :: c3 :: rest =>
    let r := decode3 c0 c1 c2 c3
    if r.1 < 3 then some (firstN r.1 r.2)
    else match decodeMax n rest with
      | none => none
      | some l => some (firstN 3 r.2 ++ l)
  | _ + 1, c0 :: c1 :: c2 :: c3 :: _ =>
    let r := decode3 c0 c1 c2 c3
    some (firstN r.1 r.2)
  | _ + 1, _ => none

-- models: vital/kwiversys/Base64.c:238-283 (loop bounded by the number of decoded bytes)
def decodeLen : Nat → List Byte → Option (List Byte)
  | 0, _ => some []
  | n + 3, c0 :: c1 :: c2 :: c3 :: rest =>
    let r := decode3 c0 c1 c2 c3
    if r.1 < 3 then some (firstN r.1 r.2)
    else match decodeLen n rest with
      | none => none
      | some l => some (firstN 3 r.2 ++ l)
  | 2, c0 :: c1 :: c2 :: c3 :: _ =>
    let r := decode3 c0 c1 c2 c3
    if r.1 ≥ 2 then some [r.2.1, r.2.2.1] else if r.1 > 0 then some [r.2.1] else some []
  | 1, c0 :: c1 :: c2 :: c3 :: _ =>
    let r := decode3 c0 c1 c2 c3
    if r.1 > 0 then some [r.2.1] else some []
  | _ + 1, _ => none

-- models: vital/kwiversys/Base64.c:214-286 (kwsysBase64_Decode)
def decode (input : List Byte) (length maxInput : Nat) : Option (List Byte) :=
  if maxInput ≠ 0 then decodeMax maxInput input else decodeLen length input

/-! ### Character lemmas (exhaustive over the 64 six-bit values, by kernel evaluation) -/

theorem char_table : ∀ n : Fin 64, decodeChar (encodeChar (BitVec.ofNat 8 n.val)) = BitVec.ofNat 8 n.val ∧
    encodeChar (BitVec.ofNat 8 n.val) ≠ pad := by decide +kernel

theorem char_roundtrip {x : Byte} (h : x.toNat < 64) : decodeChar (encodeChar x) = x ∧ encodeChar x ≠ pad := by
  have := char_table ⟨x.toNat, h⟩
  simpa using this

theorem six_ne_ff {x : Byte} (h : x.toNat < 64) : x ≠ 0xFF#8 := by
  rintro rfl; revert h; decide

theorem and_lt (x : Byte) {k : Byte} (hk : k.toNat < 64) : (x &&& k).toNat < 64 := by
  rw [BitVec.toNat_and]
  exact Nat.lt_of_le_of_lt Nat.and_le_right hk

theorem or_lt {x y : Byte} (hx : x.toNat < 64) (hy : y.toNat < 64) : (x ||| y).toNat < 64 := by
  rw [BitVec.toNat_or]
  exact Nat.or_lt_two_pow (n := 6) hx hy

theorem decodeChar_pad : decodeChar pad = 0#8 := by decide +kernel

/-! ### Bit lemmas -/

theorem bits0 (a b : Byte) : (((((a >>> 2) &&& 0x3F#8) <<< 2) &&& 0xFC#8) |||
    ((((((a <<< 4) &&& 0x30#8) ||| ((b >>> 4) &&& 0x0F#8))) >>> 4) &&& 0x03#8)) = a := by
  apply BitVec.eq_of_getLsbD_eq
  intro i hi
  have : i = 0 ∨ i = 1 ∨ i = 2 ∨ i = 3 ∨ i = 4 ∨ i = 5 ∨ i = 6 ∨ i = 7 := by omega
  rcases this with rfl | rfl | rfl | rfl | rfl | rfl | rfl | rfl <;> simp [BitVec.getLsbD_ofNat]

theorem bits0' (a : Byte) : (((((a >>> 2) &&& 0x3F#8) <<< 2) &&& 0xFC#8) |||
    (((((a <<< 4) &&& 0x30#8)) >>> 4) &&& 0x03#8)) = a := by
  apply BitVec.eq_of_getLsbD_eq
  intro i hi
  have : i = 0 ∨ i = 1 ∨ i = 2 ∨ i = 3 ∨ i = 4 ∨ i = 5 ∨ i = 6 ∨ i = 7 := by omega
  rcases this with rfl | rfl | rfl | rfl | rfl | rfl | rfl | rfl <;> simp [BitVec.getLsbD_ofNat]

theorem bits1 (a b c : Byte) : ((((((a <<< 4) &&& 0x30#8) ||| ((b >>> 4) &&& 0x0F#8)) <<< 4) &&& 0xF0#8) |||
    (((((b <<< 2) &&& 0x3C#8) ||| ((c >>> 6) &&& 0x03#8)) >>> 2) &&& 0x0F#8)) = b := by
  apply BitVec.eq_of_getLsbD_eq
  intro i hi
  have : i = 0 ∨ i = 1 ∨ i = 2 ∨ i = 3 ∨ i = 4 ∨ i = 5 ∨ i = 6 ∨ i = 7 := by omega
  rcases this with rfl | rfl | rfl | rfl | rfl | rfl | rfl | rfl <;> simp [BitVec.getLsbD_ofNat]

theorem bits1' (a b : Byte) : ((((((a <<< 4) &&& 0x30#8) ||| ((b >>> 4) &&& 0x0F#8)) <<< 4) &&& 0xF0#8) |||
    (((((b <<< 2) &&& 0x3C#8)) >>> 2) &&& 0x0F#8)) = b := by
  apply BitVec.eq_of_getLsbD_eq
  intro i hi
  have : i = 0 ∨ i = 1 ∨ i = 2 ∨ i = 3 ∨ i = 4 ∨ i = 5 ∨ i = 6 ∨ i = 7 := by omega
  rcases this with rfl | rfl | rfl | rfl | rfl | rfl | rfl | rfl <;> simp [BitVec.getLsbD_ofNat]

theorem bits2 (b c : Byte) : (((((b <<< 2) &&& 0x3C#8) ||| ((c >>> 6) &&& 0x03#8)) <<< 6) &&& 0xC0#8) |||
    ((c &&& 0x3F#8) &&& 0x3F#8) = c := by
  apply BitVec.eq_of_getLsbD_eq
  intro i hi
  have : i = 0 ∨ i = 1 ∨ i = 2 ∨ i = 3 ∨ i = 4 ∨ i = 5 ∨ i = 6 ∨ i = 7 := by omega
  rcases this with rfl | rfl | rfl | rfl | rfl | rfl | rfl | rfl <;> simp [BitVec.getLsbD_ofNat]

/-- The four six-bit groups. -/
theorem lt0 (a : Byte) : ((a >>> 2) &&& 0x3F#8).toNat < 64 := and_lt _ (by decide)
theorem lt1 (a b : Byte) : (((a <<< 4) &&& 0x30#8) ||| ((b >>> 4) &&& 0x0F#8)).toNat < 64 :=
  or_lt (and_lt _ (by decide)) (and_lt _ (by decide))
theorem lt1' (a : Byte) : ((a <<< 4) &&& 0x30#8).toNat < 64 := and_lt _ (by decide)
theorem lt2 (b c : Byte) : (((b <<< 2) &&& 0x3C#8) ||| ((c >>> 6) &&& 0x03#8)).toNat < 64 :=
  or_lt (and_lt _ (by decide)) (and_lt _ (by decide))
theorem lt2' (b : Byte) : ((b <<< 2) &&& 0x3C#8).toNat < 64 := and_lt _ (by decide)
theorem lt3 (c : Byte) : (c &&& 0x3F#8).toNat < 64 := and_lt _ (by decide)

theorem decode3_encode3 (a b c : Byte) :
    decode3 (encodeChar ((a >>> 2) &&& 0x3F#8)) (encodeChar (((a <<< 4) &&& 0x30#8) ||| ((b >>> 4) &&& 0x0F#8)))
      (encodeChar (((b <<< 2) &&& 0x3C#8) ||| ((c >>> 6) &&& 0x03#8))) (encodeChar (c &&& 0x3F#8)) = (3, a, b, c) := by
  unfold decode3
  simp only [(char_roundtrip (lt0 a)).1, (char_roundtrip (lt1 a b)).1, (char_roundtrip (lt2 b c)).1,
    (char_roundtrip (lt3 c)).1, six_ne_ff (lt0 a), six_ne_ff (lt1 a b), six_ne_ff (lt2 b c), six_ne_ff (lt3 c),
    (char_roundtrip (lt2 b c)).2, (char_roundtrip (lt3 c)).2, or_self, ↓reduceIte, bits0, bits1, bits2]

theorem decode3_encode2 (a b : Byte) : ∃ z,
    decode3 (encodeChar ((a >>> 2) &&& 0x3F#8)) (encodeChar (((a <<< 4) &&& 0x30#8) ||| ((b >>> 4) &&& 0x0F#8)))
      (encodeChar ((b <<< 2) &&& 0x3C#8)) pad = (2, a, b, z) := by
  unfold decode3
  simp only [(char_roundtrip (lt0 a)).1, (char_roundtrip (lt1 a b)).1, (char_roundtrip (lt2' b)).1, decodeChar_pad,
    six_ne_ff (lt0 a), six_ne_ff (lt1 a b), six_ne_ff (lt2' b), (by decide : (0#8 : Byte) ≠ 0xFF#8),
    (char_roundtrip (lt2' b)).2, or_self, ↓reduceIte, bits0, bits1']
  exact ⟨_, rfl⟩

theorem decode3_encode1 (a : Byte) : ∃ y z,
    decode3 (encodeChar ((a >>> 2) &&& 0x3F#8)) (encodeChar ((a <<< 4) &&& 0x30#8)) pad pad = (1, a, y, z) := by
  unfold decode3
  simp only [(char_roundtrip (lt0 a)).1, (char_roundtrip (lt1' a)).1, decodeChar_pad,
    six_ne_ff (lt0 a), six_ne_ff (lt1' a), (by decide : (0#8 : Byte) ≠ 0xFF#8), or_self, ↓reduceIte, bits0']
  exact ⟨_, _, rfl⟩

theorem decode3_mark : decode3 pad pad pad pad = (1, 0#8, 0#8, 0#8) := by decide +kernel

/-! ### C49 -/

/-- Decoding an encoding (with or without end mark, followed by anything) with the known length of the
    data returns the data. -/
theorem C49_roundtrip (mark : Bool) (x rest : List Byte) :
    decode (encode mark x ++ rest) x.length 0 = some x := by
  show decodeLen x.length (encode mark x ++ rest) = some x
  fun_induction encode mark x with
  | case1 a b c r ih =>
    simp only [List.length_cons, encode3, List.cons_append, List.nil_append, decodeLen, decode3_encode3,
      Nat.lt_irrefl, ↓reduceIte, ih, firstN]
    rfl
  | case2 a b =>
    obtain ⟨z, hz⟩ := decode3_encode2 a b
    simp [encode2, decodeLen, hz]
  | case3 a =>
    obtain ⟨y, z, hz⟩ := decode3_encode1 a
    simp [encode1, decodeLen, hz]
  | case4 => simp [decodeLen]
  | case5 => simp [decodeLen]

/-- Decoding the unmarked encoding with the number of encoded characters as limit returns the data. -/
theorem C49_roundtrip_max (x rest : List Byte) (hx : x ≠ []) (n : Nat) :
    decode (encode false x ++ rest) n (encode false x).length = some x := by
  have hne : (encode false x).length ≠ 0 := by
    fun_cases encode false x <;> simp_all [encode3, encode2, encode1]
  unfold decode
  rw [if_pos hne]
  clear hne hx
  fun_induction encode false x with
  | case1 a b c r ih =>
    simp only [encode3, List.cons_append, List.nil_append, List.length_cons, decodeMax, decode3_encode3,
      Nat.lt_irrefl, ↓reduceIte, ih, firstN]
    rfl
  | case2 a b =>
    obtain ⟨z, hz⟩ := decode3_encode2 a b
    simp [encode2, decodeMax, hz, firstN]
  | case3 a =>
    obtain ⟨y, z, hz⟩ := decode3_encode1 a
    simp [encode1, decodeMax, hz, firstN]
  | case4 h => cases h
  | case5 => simp [decodeMax]

/-- The encoding has 4 characters per started group of 3 bytes (4 more for the end mark when the length is
    a multiple of 3), all of them letters, digits, `+`, `/` or the padding character, and the padding only
    occurs in the last four. -/
theorem C49_shape (mark : Bool) (x : List Byte) :
    (encode mark x).length = 4 * ((x.length + 2) / 3) + (if mark ∧ x.length % 3 = 0 then 4 else 0) ∧
    (∀ c ∈ encode mark x, c = pad ∨ c ∈ encodeTable) ∧
    (∀ i, i + 4 < (encode mark x).length → (encode mark x)[i]? ≠ some pad) := by
  have tab : ∀ n : Fin 64, encodeChar (BitVec.ofNat 8 n.val) ∈ encodeTable := by decide +kernel
  have tab' : ∀ {x : Byte}, x.toNat < 64 → encodeChar x ∈ encodeTable := by
    intro x h
    have := tab ⟨x.toNat, h⟩
    simpa using this
  fun_induction encode mark x with
  | case1 a b c r ih =>
    obtain ⟨h1, h2, h3⟩ := ih
    refine ⟨?_, ?_, ?_⟩
    · simp only [encode3, List.cons_append, List.nil_append, List.length_cons, h1]
      have e : (r.length + 1 + 1 + 1) % 3 = r.length % 3 := by omega
      simp only [e]
      have : (r.length + 1 + 1 + 1 + 2) / 3 = (r.length + 2) / 3 + 1 := by omega
      rw [this]; omega
    · intro ch hch
      simp only [encode3, List.cons_append, List.nil_append, List.mem_cons] at hch
      rcases hch with rfl | rfl | rfl | rfl | hch
      · right; exact tab' (lt0 a)
      · right; exact tab' (lt1 a b)
      · right; exact tab' (lt2 b c)
      · right; exact tab' (lt3 c)
      · exact h2 ch hch
    · intro i hi
      simp only [encode3, List.cons_append, List.nil_append, List.length_cons] at hi ⊢
      match i with
      | 0 => simp [(char_roundtrip (lt0 a)).2]
      | 1 => simp [(char_roundtrip (lt1 a b)).2]
      | 2 => simp [(char_roundtrip (lt2 b c)).2]
      | 3 => simp [(char_roundtrip (lt3 c)).2]
      | i + 4 => simp only [List.getElem?_cons_succ]; exact h3 i (by omega)
  | case2 a b =>
    refine ⟨by simp [encode2], ?_, by intro i hi; simp [encode2] at hi; omega⟩
    intro ch hch
    simp only [encode2, List.mem_cons, List.not_mem_nil, or_false] at hch
    rcases hch with rfl | rfl | rfl | rfl
    · right; exact tab' (lt0 a)
    · right; exact tab' (lt1 a b)
    · right; exact tab' (lt2' b)
    · left; rfl
  | case3 a =>
    refine ⟨by simp [encode1], ?_, by intro i hi; simp [encode1] at hi; omega⟩
    intro ch hch
    simp only [encode1, List.mem_cons, List.not_mem_nil, or_false] at hch
    rcases hch with rfl | rfl | rfl | rfl
    · right; exact tab' (lt0 a)
    · right; exact tab' (lt1' a)
    · left; rfl
    · left; rfl
  | case4 h => simp [h]; intro i hi; omega
  | case5 h => simp [h]

example : encode false [77, 97, 110, 33] = [84, 87, 70, 117, 73, 81, 61, 61] ∧
    decode [84, 87, 70, 117, 73, 81, 61, 61] 4 0 = some [77, 97, 110, 33] ∧
    decode [84, 87, 70, 117, 73, 81, 61, 61] 0 8 = some [77, 97, 110, 33] := by decide +kernel

/-! ### C50 -/

/-- Full property: with the end mark, decoding up to the encoded length returns exactly the data. -/
def C50_statement : Prop := ∀ x : List Byte, decode (encode true x) 0 (encode true x).length = some x

/-- What the code does: when the length is a multiple of three, one extra zero byte is returned (the
    padding character decodes to 0, so the end mark is taken for one byte); otherwise the data. -/
theorem C50_exact (x : List Byte) (n : Nat) :
    decode (encode true x) n (encode true x).length = some (if x.length % 3 = 0 then x ++ [0#8] else x) := by
  have hne : (encode true x).length ≠ 0 := by
    fun_cases encode true x <;> simp_all [encode3, encode2, encode1]
  unfold decode
  rw [if_pos hne]
  clear hne
  fun_induction encode true x with
  | case1 a b c r ih =>
    simp only [encode3, List.cons_append, List.nil_append, List.length_cons, decodeMax, decode3_encode3,
      Nat.lt_irrefl, ↓reduceIte, ih, firstN]
    have e : (r.length + 1 + 1 + 1) % 3 = r.length % 3 := by omega
    rw [e]
    split <;> simp
  | case2 a b =>
    obtain ⟨z, hz⟩ := decode3_encode2 a b
    simp [encode2, decodeMax, hz, firstN]
  | case3 a =>
    obtain ⟨y, z, hz⟩ := decode3_encode1 a
    simp [encode1, decodeMax, hz, firstN]
  | case4 h => simp [decodeMax, decode3_mark, firstN]
  | case5 h => simp at h

theorem C50_refuted : ¬ C50_statement := by
  intro h
  have := h [1, 2, 3]
  rw [C50_exact] at this
  simp at this

/-- What holds: data whose length is not a multiple of three. Missing: multiples of three. -/
theorem C50_partial (x : List Byte) (h : x.length % 3 ≠ 0) :
    decode (encode true x) 0 (encode true x).length = some x := by
  rw [C50_exact, if_neg h]

example : ([1, 2, 3, 4] : List Byte).length % 3 ≠ 0 := by decide

/-! ### C70: the documented output buffer estimate -/

/-- The header comment of `Encode`: an output buffer of `length * 1.5` bytes is a safe estimate. -/
def C70_statement : Prop := ∀ (mark : Bool) (x : List Byte), 2 * (encode mark x).length ≤ 3 * x.length

/-- C70 is false of the code for short inputs: one byte is encoded as four characters. -/
theorem C70_refuted : ¬ C70_statement := by
  intro h
  have := h false [1]
  revert this; decide +kernel

/-- What holds: the estimate is safe from 14 bytes on without end mark and from 24 bytes on in general, and
    these bounds are sharp. Missing: shorter inputs. -/
theorem C70_partial (mark : Bool) (x : List Byte) (h : (if mark then 24 else 14) ≤ x.length) :
    2 * (encode mark x).length ≤ 3 * x.length := by
  rw [(C49_shape mark x).1]
  cases mark <;> simp at h ⊢
  · omega
  · split <;> omega

theorem C70_sharp : (∃ x : List Byte, x.length = 13 ∧ 3 * x.length < 2 * (encode false x).length) ∧
    (∃ x : List Byte, x.length = 21 ∧ 3 * x.length < 2 * (encode true x).length) :=
  ⟨⟨List.replicate 13 0, by simp, by decide +kernel⟩, ⟨List.replicate 21 0, by simp, by decide +kernel⟩⟩

end Vital.Base64
