import Verif.Basic.Str
import Mathlib.Analysis.SpecialFunctions.Trigonometric.Basic
/-
  Model of vital/kwiversys/MD5.c and the definition of MD5 in RFC 1321; property C145 (proofs in MD5Props, sine table in MD5Sine).

  A little-endian machine; `unsigned int` has 32 bits.  The state of a new object is arbitrary (malloc).
-/
namespace Vital.MD5

/-! ### The code -/

inductive Fn where | F | G | H | I
  deriving DecidableEq, Repr
inductive Reg where | a | b | c | d
  deriving DecidableEq, Repr

/-- The local variables `a`, `b`, `c`, `d` of md5_process; also `pms->abcd`. -/
structure Regs where
  a : UInt32
  b : UInt32
  c : UInt32
  d : UInt32
  deriving DecidableEq

def Regs.get (r : Regs) : Reg → UInt32
  | .a => r.a | .b => r.b | .c => r.c | .d => r.d

def Regs.set (r : Regs) (x : Reg) (v : UInt32) : Regs :=
  match x with
  | .a => { r with a := v } | .b => { r with b := v } | .c => { r with c := v } | .d => { r with d := v }

/-- `abcd[i]` -/
def Regs.nth (r : Regs) : Nat → UInt32
  | 0 => r.a | 1 => r.b | 2 => r.c | _ => r.d

-- models: vital/kwiversys/MD5.c:255, 281, 307, 333 (macros F, G, H, I)
def Fn.app : Fn → UInt32 → UInt32 → UInt32 → UInt32
  | .F, x, y, z => (x &&& y) ||| (~~~x &&& z)
  | .G, x, y, z => (x &&& z) ||| (y &&& ~~~z)
  | .H, x, y, z => x ^^^ y ^^^ z
  | .I, x, y, z => y ^^^ (x ||| ~~~z)

-- models: vital/kwiversys/MD5.c:250 (ROTATE_LEFT)
def rotateLeft (x n : UInt32) : UInt32 := (x <<< n) ||| (x >>> (32 - n))

/-- One use of the macro SET. -/
-- models: vital/kwiversys/MD5.c:256-258, 282-284, 308-310, 334-336
structure Set where
  fn : Fn
  a : Reg
  b : Reg
  c : Reg
  d : Reg
  k : Nat
  s : UInt32
  t : UInt32

def Set.exec (X : Nat → UInt32) (r : Regs) (i : Set) : Regs :=
  let t := r.get i.a + i.fn.app (r.get i.b) (r.get i.c) (r.get i.d) + X i.k + i.t
  r.set i.a (rotateLeft t i.s + r.get i.b)

-- models: vital/kwiversys/MD5.c:116 (T_MASK)
def tMask : UInt32 := 0xffffffff

-- models: vital/kwiversys/MD5.c:117-180 (T1 .. T64), 260-275, 286-301, 312-327, 338-353 (the 64 SETs)
def sets : List Set := [
  ⟨.F, .a, .b, .c, .d, 0, 7, (tMask ^^^ 0x28955b87)⟩, ⟨.F, .d, .a, .b, .c, 1, 12, (tMask ^^^ 0x173848a9)⟩,
  ⟨.F, .c, .d, .a, .b, 2, 17, 0x242070db⟩, ⟨.F, .b, .c, .d, .a, 3, 22, (tMask ^^^ 0x3e423111)⟩,
  ⟨.F, .a, .b, .c, .d, 4, 7, (tMask ^^^ 0x0a83f050)⟩, ⟨.F, .d, .a, .b, .c, 5, 12, 0x4787c62a⟩,
  ⟨.F, .c, .d, .a, .b, 6, 17, (tMask ^^^ 0x57cfb9ec)⟩, ⟨.F, .b, .c, .d, .a, 7, 22, (tMask ^^^ 0x02b96afe)⟩,
  ⟨.F, .a, .b, .c, .d, 8, 7, 0x698098d8⟩, ⟨.F, .d, .a, .b, .c, 9, 12, (tMask ^^^ 0x74bb0850)⟩,
  ⟨.F, .c, .d, .a, .b, 10, 17, (tMask ^^^ 0x0000a44e)⟩, ⟨.F, .b, .c, .d, .a, 11, 22, (tMask ^^^ 0x76a32841)⟩,
  ⟨.F, .a, .b, .c, .d, 12, 7, 0x6b901122⟩, ⟨.F, .d, .a, .b, .c, 13, 12, (tMask ^^^ 0x02678e6c)⟩,
  ⟨.F, .c, .d, .a, .b, 14, 17, (tMask ^^^ 0x5986bc71)⟩, ⟨.F, .b, .c, .d, .a, 15, 22, 0x49b40821⟩,
  ⟨.G, .a, .b, .c, .d, 1, 5, (tMask ^^^ 0x09e1da9d)⟩, ⟨.G, .d, .a, .b, .c, 6, 9, (tMask ^^^ 0x3fbf4cbf)⟩,
  ⟨.G, .c, .d, .a, .b, 11, 14, 0x265e5a51⟩, ⟨.G, .b, .c, .d, .a, 0, 20, (tMask ^^^ 0x16493855)⟩,
  ⟨.G, .a, .b, .c, .d, 5, 5, (tMask ^^^ 0x29d0efa2)⟩, ⟨.G, .d, .a, .b, .c, 10, 9, 0x02441453⟩,
  ⟨.G, .c, .d, .a, .b, 15, 14, (tMask ^^^ 0x275e197e)⟩, ⟨.G, .b, .c, .d, .a, 4, 20, (tMask ^^^ 0x182c0437)⟩,
  ⟨.G, .a, .b, .c, .d, 9, 5, 0x21e1cde6⟩, ⟨.G, .d, .a, .b, .c, 14, 9, (tMask ^^^ 0x3cc8f829)⟩,
  ⟨.G, .c, .d, .a, .b, 3, 14, (tMask ^^^ 0x0b2af278)⟩, ⟨.G, .b, .c, .d, .a, 8, 20, 0x455a14ed⟩,
  ⟨.G, .a, .b, .c, .d, 13, 5, (tMask ^^^ 0x561c16fa)⟩, ⟨.G, .d, .a, .b, .c, 2, 9, (tMask ^^^ 0x03105c07)⟩,
  ⟨.G, .c, .d, .a, .b, 7, 14, 0x676f02d9⟩, ⟨.G, .b, .c, .d, .a, 12, 20, (tMask ^^^ 0x72d5b375)⟩,
  ⟨.H, .a, .b, .c, .d, 5, 4, (tMask ^^^ 0x0005c6bd)⟩, ⟨.H, .d, .a, .b, .c, 8, 11, (tMask ^^^ 0x788e097e)⟩,
  ⟨.H, .c, .d, .a, .b, 11, 16, 0x6d9d6122⟩, ⟨.H, .b, .c, .d, .a, 14, 23, (tMask ^^^ 0x021ac7f3)⟩,
  ⟨.H, .a, .b, .c, .d, 1, 4, (tMask ^^^ 0x5b4115bb)⟩, ⟨.H, .d, .a, .b, .c, 4, 11, 0x4bdecfa9⟩,
  ⟨.H, .c, .d, .a, .b, 7, 16, (tMask ^^^ 0x0944b49f)⟩, ⟨.H, .b, .c, .d, .a, 10, 23, (tMask ^^^ 0x4140438f)⟩,
  ⟨.H, .a, .b, .c, .d, 13, 4, 0x289b7ec6⟩, ⟨.H, .d, .a, .b, .c, 0, 11, (tMask ^^^ 0x155ed805)⟩,
  ⟨.H, .c, .d, .a, .b, 3, 16, (tMask ^^^ 0x2b10cf7a)⟩, ⟨.H, .b, .c, .d, .a, 6, 23, 0x04881d05⟩,
  ⟨.H, .a, .b, .c, .d, 9, 4, (tMask ^^^ 0x262b2fc6)⟩, ⟨.H, .d, .a, .b, .c, 12, 11, (tMask ^^^ 0x1924661a)⟩,
  ⟨.H, .c, .d, .a, .b, 15, 16, 0x1fa27cf8⟩, ⟨.H, .b, .c, .d, .a, 2, 23, (tMask ^^^ 0x3b53a99a)⟩,
  ⟨.I, .a, .b, .c, .d, 0, 6, (tMask ^^^ 0x0bd6ddbb)⟩, ⟨.I, .d, .a, .b, .c, 7, 10, 0x432aff97⟩,
  ⟨.I, .c, .d, .a, .b, 14, 15, (tMask ^^^ 0x546bdc58)⟩, ⟨.I, .b, .c, .d, .a, 5, 21, (tMask ^^^ 0x036c5fc6)⟩,
  ⟨.I, .a, .b, .c, .d, 12, 6, 0x655b59c3⟩, ⟨.I, .d, .a, .b, .c, 3, 10, (tMask ^^^ 0x70f3336d)⟩,
  ⟨.I, .c, .d, .a, .b, 10, 15, (tMask ^^^ 0x00100b82)⟩, ⟨.I, .b, .c, .d, .a, 1, 21, (tMask ^^^ 0x7a7ba22e)⟩,
  ⟨.I, .a, .b, .c, .d, 8, 6, 0x6fa87e4f⟩, ⟨.I, .d, .a, .b, .c, 15, 10, (tMask ^^^ 0x01d3191f)⟩,
  ⟨.I, .c, .d, .a, .b, 6, 15, (tMask ^^^ 0x5cfebceb)⟩, ⟨.I, .b, .c, .d, .a, 13, 21, 0x4e0811a1⟩,
  ⟨.I, .a, .b, .c, .d, 4, 6, (tMask ^^^ 0x08ac817d)⟩, ⟨.I, .d, .a, .b, .c, 11, 10, (tMask ^^^ 0x42c50dca)⟩,
  ⟨.I, .c, .d, .a, .b, 2, 15, 0x2ad7d2bb⟩, ⟨.I, .b, .c, .d, .a, 9, 21, (tMask ^^^ 0x14792c6e)⟩]

/-- The 32-bit word read from little-endian memory at byte `4 * k`. -/
-- models: vital/kwiversys/MD5.c:213-223, 240-243
def word (data : List UInt8) (k : Nat) : UInt32 :=
  UInt32.ofNat ((data.getD (4 * k) 0).toNat + 256 * (data.getD (4 * k + 1) 0).toNat + 65536 * (data.getD (4 * k + 2) 0).toNat + 16777216 * (data.getD (4 * k + 3) 0).toNat)

-- models: vital/kwiversys/MD5.c:183-363 (md5_process)
def process (r : Regs) (data : List UInt8) : Regs :=
  let q := sets.foldl (Set.exec (word data)) r
  ⟨r.a + q.a, r.b + q.b, r.c + q.c, r.d + q.d⟩

-- models: vital/kwiversys/MD5.c:104-108 (md5_state_t)
structure State where
  count0 : UInt32
  count1 : UInt32
  abcd : Regs
  buf : List UInt8
  deriving DecidableEq

-- models: vital/kwiversys/MD5.c:366-373 (md5_init), 473-476; the buffer keeps its bytes
def init (st : State) : State :=
  { st with count0 := 0, count1 := 0, abcd := ⟨0x67452301, tMask ^^^ 0x10325476, tMask ^^^ 0x67452301, 0x10325476⟩ }

/-- `memcpy(buf + off, p, n)` -/
def copyTo (buf : List UInt8) (off : Nat) (p : List UInt8) (n : Nat) : List UInt8 :=
  buf.take off ++ p.take n ++ buf.drop (off + n)

/-- The loop over full blocks with pointer `p`, `left = p.length`; the number bounds the iterations. -/
-- models: vital/kwiversys/MD5.c:403-405
def full : Nat → Regs → List UInt8 → Regs × List UInt8
  | 0, r, p => (r, p)
  | n + 1, r, p => if 64 ≤ p.length then full n (process r (p.take 64)) (p.drop 64) else (r, p)

-- models: vital/kwiversys/MD5.c:376-411 (md5_append)
def append (st : State) (data : List UInt8) : State :=
  let nbytes := data.length
  let offset := ((st.count0 >>> 3) &&& 63).toNat
  let nbits := UInt32.ofNat (nbytes <<< 3)
  if nbytes = 0 then st else
  let c0 := st.count0 + nbits
  let c1 := st.count1 + UInt32.ofNat (nbytes >>> 29)
  let c1 := if c0 < nbits then c1 + 1 else c1
  let st := { st with count0 := c0, count1 := c1 }
  let rest (r : Regs) (buf p : List UInt8) : State :=
    let q := full p.length r p
    { st with abcd := q.1, buf := if q.2.length ≠ 0 then copyTo buf 0 q.2 q.2.length else buf }
  if offset ≠ 0 then
    let copy := if offset + nbytes > 64 then 64 - offset else nbytes
    let buf := copyTo st.buf offset data copy
    if offset + copy < 64 then { st with buf := buf }
    else rest (process st.abcd buf) buf (data.drop copy)
  else rest st.abcd st.buf data

-- models: vital/kwiversys/MD5.c:416-421 (pad)
def pad : List UInt8 := 0x80 :: List.replicate 63 0

/-- Byte `i` of the word array `w`. -/
-- models: vital/kwiversys/MD5.c:427, 433
def byteOf (w : Nat → UInt32) (i : Nat) : UInt8 := (w (i >>> 2) >>> UInt32.ofNat ((i &&& 3) <<< 3)).toUInt8

-- models: vital/kwiversys/MD5.c:414-434 (md5_finish)
def finish (st : State) : State × List UInt8 :=
  let data := (List.range 8).map (byteOf fun j => if j = 0 then st.count0 else st.count1)
  let st1 := append st (pad.take ((((55 : UInt32) - (st.count0 >>> 3)) &&& 63) + 1).toNat)
  let st2 := append st1 data
  (st2, (List.range 16).map (byteOf st2.abcd.nth))

/-- `data` is the memory from the pointer on; a negative length means a C string. -/
-- models: vital/kwiversys/MD5.c:479-491 (kwsysMD5_Append)
def kwAppend (st : State) (data : List UInt8) (length : Int) : State :=
  if length < 0 then append st (data.takeWhile (· ≠ 0)) else append st (data.take length.toNat)

-- models: vital/kwiversys/MD5.c:510-513 (hex)
def hex : List Char := ['0', '1', '2', '3', '4', '5', '6', '7', '8', '9', 'a', 'b', 'c', 'd', 'e', 'f']

-- models: vital/kwiversys/MD5.c:508-523 (kwsysMD5_DigestToHex)
def toHex : List UInt8 → List Char
  | [] => []
  | x :: l => hex.getD (x >>> 4).toNat ' ' :: hex.getD (x &&& 0xF).toNat ' ' :: toHex l

-- models: vital/kwiversys/MD5.c:500-505 (kwsysMD5_FinalizeHex)
def finishHex (st : State) : State × List Char := ((finish st).1, toHex (finish st).2)

/-! ### RFC 1321 -/

namespace Rfc

/-- Section 3.4: element `i + 1` of the table is the integer part of 4294967296 times abs(sin(i + 1)). -/
noncomputable def T (i : Nat) : UInt32 := UInt32.ofNat ⌊(4294967296 : ℝ) * |Real.sin ((i : ℝ) + 1)|⌋₊

/-- Section 3.4: the auxiliary functions of the four rounds. -/
def aux : Nat → UInt32 → UInt32 → UInt32 → UInt32
  | 0, x, y, z => (x &&& y) ||| (~~~x &&& z)
  | 1, x, y, z => (x &&& z) ||| (y &&& ~~~z)
  | 2, x, y, z => x ^^^ y ^^^ z
  | _, x, y, z => y ^^^ (x ||| ~~~z)

/-- Which word of the block operation `i` of a round uses. -/
def index : Nat → Nat → Nat
  | 0, i => i % 16
  | 1, i => (5 * i + 1) % 16
  | 2, i => (3 * i + 5) % 16
  | _, i => 7 * i % 16

/-- How far operation `i` of a round rotates. -/
def shift (round i : Nat) : Nat := (([[7, 12, 17, 22], [5, 9, 14, 20], [4, 11, 16, 23], [6, 10, 15, 21]].getD round []).getD (i % 4) 0)

/-- Operation `i` (of 64), with the roles of the registers rotated instead of their names:
    `a = b + ((a + f(b,c,d) + X[k] + T[i]) <<< s)`, then (a, b, c, d) becomes (d, a, b, c). -/
noncomputable def op (X : Nat → UInt32) (r : Regs) (i : Nat) : Regs :=
  let round := i / 16
  let v := r.a + aux round r.b r.c r.d + X (index round i) + T i
  ⟨r.d, r.b + ⟨v.toBitVec.rotateLeft (shift round i)⟩, r.b, r.c⟩

/-- The words of a block, low-order byte first (section 2). -/
def words (block : List UInt8) (k : Nat) : UInt32 :=
  UInt32.ofNat ((block.getD (4 * k) 0).toNat + 256 * (block.getD (4 * k + 1) 0).toNat + 65536 * (block.getD (4 * k + 2) 0).toNat + 16777216 * (block.getD (4 * k + 3) 0).toNat)

noncomputable def compress (r : Regs) (block : List UInt8) : Regs :=
  let q := (List.range 64).foldl (op (words block)) r
  ⟨r.a + q.a, r.b + q.b, r.c + q.c, r.d + q.d⟩

/-- Little-endian bytes of a number. -/
def le : Nat → Nat → List UInt8
  | 0, _ => []
  | n + 1, x => UInt8.ofNat (x % 256) :: le n (x / 256)

/-- Sections 3.1 and 3.2: a 1 bit, then 0 bits up to 56 bytes modulo 64, then the low 64 bits of the number of bits. -/
def padded (m : List UInt8) : List UInt8 :=
  m ++ 0x80 :: List.replicate ((119 - m.length % 64) % 64) 0 ++ le 8 (8 * m.length % 2 ^ 64)

/-- The message in blocks of 64 bytes. -/
def block (m : List UInt8) (i : Nat) : List UInt8 := (m.drop (64 * i)).take 64

/-- Section 3.3: the initial registers; 3.4; 3.5: the registers, low-order byte first. -/
noncomputable def md5 (m : List UInt8) : List UInt8 :=
  let p := padded m
  let r := (List.range (p.length / 64)).foldl (fun r i => compress r (block p i)) ⟨0x67452301, 0xefcdab89, 0x98badcfe, 0x10325476⟩
  le 4 r.a.toNat ++ le 4 r.b.toNat ++ le 4 r.c.toNat ++ le 4 r.d.toNat

end Rfc

example : (finishHex (append (init ⟨7, 8, ⟨1, 2, 3, 4⟩, List.replicate 64 5⟩) [97, 98, 99])).2 = "900150983cd24fb0d6963f7d28e17f72".toList := by decide +kernel

end Vital.MD5
