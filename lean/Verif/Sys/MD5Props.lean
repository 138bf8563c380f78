import Verif.Sys.MD5Sine
import Mathlib.Data.List.Induction
/- Property C145: kwsysMD5 computes the MD5 of RFC 1321, however the message is cut into Append calls. -/
namespace Vital.MD5

/-! ### One block -/

def args : Nat → Reg × Reg × Reg × Reg
  | 0 => (.a, .b, .c, .d) | 1 => (.d, .a, .b, .c) | 2 => (.c, .d, .a, .b) | _ => (.b, .c, .d, .a)

def fnOf : Nat → Fn
  | 0 => .F | 1 => .G | 2 => .H | _ => .I

def ins (i : Nat) : Set := sets.getD i ⟨.F, .a, .b, .c, .d, 0, 0, 0⟩

theorem ins_table : ∀ i < 64, (ins i).fn = fnOf (i / 16) ∧ ((ins i).a, (ins i).b, (ins i).c, (ins i).d) = args (i % 4) ∧
    (ins i).k = Rfc.index (i / 16) i ∧ (ins i).s = UInt32.ofNat (Rfc.shift (i / 16) i) ∧ (ins i).t = Sine.const i ∧ Rfc.shift (i / 16) i < 32 ∧ 0 < Rfc.shift (i / 16) i := by decide +kernel

theorem sets_ins : sets = (List.range 64).map ins := by rfl

/-- The registers in the roles they have in operation `i`. -/
def view (i : Nat) (r : Regs) : Regs :=
  let q := args (i % 4)
  ⟨r.get q.1, r.get q.2.1, r.get q.2.2.1, r.get q.2.2.2⟩

theorem fnOf_app (n : Nat) (x y z : UInt32) : (fnOf n).app x y z = Rfc.aux n x y z := by
  match n with
  | 0 => rfl
  | 1 => rfl
  | 2 => rfl
  | n + 3 => rfl

theorem rotate_eq : ∀ s < 32, 0 < s → ∀ v : UInt32, rotateLeft v (UInt32.ofNat s) = ⟨v.toBitVec.rotateLeft s⟩ := by
  intro s hs h0 v
  unfold rotateLeft
  apply UInt32.eq_of_toBitVec_eq
  rw [BitVec.rotateLeft_def]
  have h1 : (UInt32.ofNat s).toNat = s := by simp; omega
  have h2 : ((32 : UInt32) - UInt32.ofNat s).toNat = 32 - s := by
    rw [UInt32.toNat_sub_of_le]
    · rw [h1]; rfl
    · rw [UInt32.le_iff_toNat_le, h1]; show s ≤ 32; omega
  apply BitVec.eq_of_toNat_eq
  simp only [UInt32.toBitVec_or, UInt32.toBitVec_shiftLeft, UInt32.toBitVec_shiftRight, BitVec.toNat_or]
  rw [Nat.mod_eq_of_lt hs]
  have e1 : (v.toBitVec <<< ((UInt32.ofNat s).toBitVec % 32)) = v.toBitVec <<< s := by
    rw [BitVec.shiftLeft_eq']
    congr 1
    rw [BitVec.toNat_umod]
    show (UInt32.ofNat s).toNat % 32 = s
    rw [h1]; exact Nat.mod_eq_of_lt hs
  have e2 : (v.toBitVec >>> (((32 : UInt32) - UInt32.ofNat s).toBitVec % 32)) = v.toBitVec >>> (32 - s) := by
    rw [BitVec.ushiftRight_eq']
    congr 1
    rw [BitVec.toNat_umod]
    show ((32 : UInt32) - UInt32.ofNat s).toNat % 32 = 32 - s
    rw [h2]; exact Nat.mod_eq_of_lt (by omega)
  rw [e1, e2]

theorem exec_view (X : Nat → UInt32) (r : Regs) (i : Nat) (hi : i < 64) : view (i + 1) ((ins i).exec X r) = Rfc.op X (view i r) i := by
  obtain ⟨h1, h2, h3, h4, h5, h6, h7⟩ := ins_table i hi
  generalize ins i = I at *
  obtain ⟨fn, a, b, c, d, k, s, t⟩ := I
  simp only at h1 h2 h3 h4 h5
  subst h1; subst h3; subst h4; subst h5
  unfold Set.exec Rfc.op
  simp only [fnOf_app, rotate_eq _ h6 h7, Sine.const_eq i hi]
  unfold view
  have : i % 4 = 0 ∨ i % 4 = 1 ∨ i % 4 = 2 ∨ i % 4 = 3 := by omega
  rcases this with e | e | e | e
  · rw [e] at h2 ⊢
    rw [show (i + 1) % 4 = 1 by omega]
    simp only [args, Prod.mk.injEq] at h2 ⊢
    obtain ⟨rfl, rfl, rfl, rfl⟩ := h2
    simp only [Regs.get, Regs.set, UInt32.add_comm]
  · rw [e] at h2 ⊢
    rw [show (i + 1) % 4 = 2 by omega]
    simp only [args, Prod.mk.injEq] at h2 ⊢
    obtain ⟨rfl, rfl, rfl, rfl⟩ := h2
    simp only [Regs.get, Regs.set, UInt32.add_comm]
  · rw [e] at h2 ⊢
    rw [show (i + 1) % 4 = 3 by omega]
    simp only [args, Prod.mk.injEq] at h2 ⊢
    obtain ⟨rfl, rfl, rfl, rfl⟩ := h2
    simp only [Regs.get, Regs.set, UInt32.add_comm]
  · rw [e] at h2 ⊢
    rw [show (i + 1) % 4 = 0 by omega]
    simp only [args, Prod.mk.injEq] at h2 ⊢
    obtain ⟨rfl, rfl, rfl, rfl⟩ := h2
    simp only [Regs.get, Regs.set, UInt32.add_comm]

theorem fold_view (X : Nat → UInt32) (r : Regs) (n : Nat) (hn : n ≤ 64) :
    view n ((List.range n).foldl (fun r i => (ins i).exec X r) r) = (List.range n).foldl (Rfc.op X) r := by
  induction n with
  | zero => rfl
  | succ n ih =>
    rw [List.range_succ, List.foldl_append, List.foldl_append]
    simp only [List.foldl_cons, List.foldl_nil]
    rw [exec_view X _ n (by omega), ih (by omega)]

theorem process_eq (r : Regs) (data : List UInt8) : process r data = Rfc.compress r data := by
  unfold process Rfc.compress
  have := fold_view (word data) r 64 (Nat.le_refl _)
  rw [sets_ins, List.foldl_map]
  have e : view 64 = id := rfl
  rw [e, id] at this
  rw [this]
  rfl

/-! ### Append -/

def iv : Regs := ⟨0x67452301, 0xefcdab89, 0x98badcfe, 0x10325476⟩

/-- The registers after the full blocks of `m`. -/
noncomputable def after (m : List UInt8) : Regs := (List.range (m.length / 64)).foldl (fun r i => Rfc.compress r (Rfc.block m i)) iv

theorem foldl_range_congr {α : Type} (f g : α → Nat → α) (n : Nat) (a : α) (h : ∀ (i : Nat) (x : α), i < n → f x i = g x i) :
    (List.range n).foldl f a = (List.range n).foldl g a := by
  induction n with
  | zero => rfl
  | succ n ih =>
    rw [List.range_succ, List.foldl_append, List.foldl_append, ih (fun i x hi => h i x (by omega))]
    exact h n _ (by omega)

theorem block_append {m x : List UInt8} {i : Nat} (h : 64 * i + 64 ≤ m.length) : Rfc.block (m ++ x) i = Rfc.block m i := by
  unfold Rfc.block
  rw [List.drop_append_of_le_length (by omega), List.take_append_of_le_length (by rw [List.length_drop]; omega)]

theorem after_short (m x : List UInt8) (h : m.length % 64 + x.length < 64) : after (m ++ x) = after m := by
  unfold after
  rw [List.length_append, show (m.length + x.length) / 64 = m.length / 64 by omega]
  exact foldl_range_congr _ _ _ _ fun i r hi => by rw [block_append (by omega)]

theorem after_block (m b : List UInt8) (h : m.length % 64 = 0) (hb : b.length = 64) : after (m ++ b) = Rfc.compress (after m) b := by
  unfold after
  rw [List.length_append, show (m.length + b.length) / 64 = m.length / 64 + 1 by omega, List.range_succ, List.foldl_append]
  simp only [List.foldl_cons, List.foldl_nil]
  rw [foldl_range_congr _ (fun r i => Rfc.compress r (Rfc.block m i)) _ _ fun i r hi => by rw [block_append (by omega)]]
  congr 1
  unfold Rfc.block
  rw [show 64 * (m.length / 64) = m.length by omega, List.drop_left, ← hb, List.take_length]

theorem full_spec (n : Nat) (m p : List UInt8) (hm : m.length % 64 = 0) (hn : p.length ≤ n) :
    full n (after m) p = (after (m ++ p), p.drop (64 * (p.length / 64))) := by
  induction n generalizing m p with
  | zero =>
    have : p = [] := List.length_eq_zero_iff.1 (by omega)
    subst this
    simp [full]
  | succ n ih =>
    unfold full
    split
    · rename_i h
      rw [process_eq, ← after_block m _ hm (by rw [List.length_take]; omega)]
      rw [ih _ _ (by rw [List.length_append, List.length_take]; omega) (by rw [List.length_drop]; omega)]
      rw [List.append_assoc, List.take_append_drop, List.drop_drop, List.length_drop]
      congr 2
      omega
    · rename_i h
      rw [after_short m p (by omega), show p.length / 64 = 0 by omega]
      rfl

/-- The state after the message `m`. -/
structure Inv (st : State) (m : List UInt8) : Prop where
  len : st.buf.length = 64
  low : st.count0.toNat = 8 * m.length % 2 ^ 32
  high : st.count1.toNat = 8 * m.length / 2 ^ 32 % 2 ^ 32
  regs : st.abcd = after m
  buf : st.buf.take (m.length % 64) = m.drop (64 * (m.length / 64))

theorem offset_eq {st : State} {m : List UInt8} (h : st.count0.toNat = 8 * m.length % 2 ^ 32) : ((st.count0 >>> 3) &&& 63).toNat = m.length % 64 := by
  rw [UInt32.toNat_and, UInt32.toNat_shiftRight, h]
  show (8 * m.length % 2 ^ 32) >>> (3 % 32) &&& (2 ^ 6 - 1) = _
  rw [Nat.and_two_pow_sub_one_eq_mod, Nat.shiftRight_eq_div_pow]
  show 8 * m.length % 2 ^ 32 / 8 % 64 = _
  omega

theorem init_inv (st : State) (h : st.buf.length = 64) : Inv (init st) [] := by
  exact ⟨h, rfl, rfl, rfl, rfl⟩

theorem count_low {c : UInt32} {n k : Nat} (h : c.toNat = 8 * n % 2 ^ 32) : (c + UInt32.ofNat (k <<< 3)).toNat = 8 * (n + k) % 2 ^ 32 := by
  rw [UInt32.toNat_add, h, UInt32.toNat_ofNat', Nat.shiftLeft_eq]
  omega

theorem count_high {c0 c1 : UInt32} {n k : Nat} (h0 : c0.toNat = 8 * n % 2 ^ 32) (h1 : c1.toNat = 8 * n / 2 ^ 32 % 2 ^ 32) :
    (if c0 + UInt32.ofNat (k <<< 3) < UInt32.ofNat (k <<< 3) then c1 + UInt32.ofNat (k >>> 29) + 1 else c1 + UInt32.ofNat (k >>> 29)).toNat = 8 * (n + k) / 2 ^ 32 % 2 ^ 32 := by
  have e := count_low (k := k) h0
  have ek : (UInt32.ofNat (k <<< 3)).toNat = 8 * k % 2 ^ 32 := by rw [UInt32.toNat_ofNat', Nat.shiftLeft_eq]; omega
  have eh : (UInt32.ofNat (k >>> 29)).toNat = k / 2 ^ 29 % 2 ^ 32 := by rw [UInt32.toNat_ofNat', Nat.shiftRight_eq_div_pow]
  split
  · rename_i hc
    rw [UInt32.lt_iff_toNat_lt, e, ek] at hc
    rw [UInt32.toNat_add, UInt32.toNat_add, h1, eh]
    show ((8 * n / 2 ^ 32 % 2 ^ 32 + k / 2 ^ 29 % 2 ^ 32) % 2 ^ 32 + 1) % 2 ^ 32 = _
    omega
  · rename_i hc
    rw [UInt32.lt_iff_toNat_lt, e, ek] at hc
    rw [UInt32.toNat_add, h1, eh]
    omega

theorem copy_take {buf p : List UInt8} {off n : Nat} (ho : off ≤ buf.length) (hn : n ≤ p.length) : (copyTo buf off p n).take (off + n) = buf.take off ++ p.take n := by
  unfold copyTo
  rw [List.take_append_of_le_length (by simp; omega), List.take_of_length_le (by simp; omega)]

theorem copy_len {buf p : List UInt8} {off n : Nat} (ho : off + n ≤ buf.length) (hn : n ≤ p.length) : (copyTo buf off p n).length = buf.length := by
  unfold copyTo
  simp; omega

theorem append_inv {st : State} {m : List UInt8} (h : Inv st m) (x : List UInt8) : Inv (append st x) (m ++ x) := by
  unfold append
  simp only
  by_cases h0 : x.length = 0
  · rw [if_pos h0, List.length_eq_zero_iff.1 h0, List.append_nil]; exact h
  rw [if_neg h0]
  have hl := count_low (k := x.length) h.low
  have hh := count_high (k := x.length) h.low h.high
  have hlen : (m ++ x).length = m.length + x.length := List.length_append
  rw [offset_eq h.low]
  generalize (if st.count0 + UInt32.ofNat (x.length <<< 3) < UInt32.ofNat (x.length <<< 3) then
    st.count1 + UInt32.ofNat (x.length >>> 29) + 1 else st.count1 + UInt32.ofNat (x.length >>> 29)) = c1 at hh ⊢
  generalize st.count0 + UInt32.ofNat (x.length <<< 3) = c0 at hl ⊢
  -- what the tail of the function does, after `m'` bytes that end in a full block
  have rest : ∀ (m' p : List UInt8) (r : Regs) (buf : List UInt8), m'.length % 64 = 0 → r = after m' → buf.length = 64 → m' ++ p = m ++ x →
      Inv ⟨c0, c1, (full p.length r p).1, if (full p.length r p).2.length ≠ 0 then copyTo buf 0 (full p.length r p).2 (full p.length r p).2.length else buf⟩ (m ++ x) := by
    intro m' p r buf hm' hr hb hmp
    subst hr
    rw [full_spec _ _ _ hm' (Nat.le_refl _), ← hmp]
    have hlp : (m' ++ p).length = m.length + x.length := by rw [hmp, hlen]
    have e1 : (m' ++ p).length = m'.length + p.length := List.length_append
    have et : (m' ++ p).drop (64 * ((m' ++ p).length / 64)) = p.drop (64 * (p.length / 64)) := by
      rw [e1, show 64 * ((m'.length + p.length) / 64) = m'.length + 64 * (p.length / 64) by omega, List.drop_length_add_append]
    refine ⟨?_, by rw [hlp]; exact hl, by rw [hlp]; exact hh, rfl, ?_⟩
    · simp only
      split
      · rw [copy_len (by rw [List.length_drop]; omega) (Nat.le_refl _)]; exact hb
      · exact hb
    · simp only
      rw [et]
      have hpd : (p.drop (64 * (p.length / 64))).length = (m' ++ p).length % 64 := by rw [List.length_drop, e1]; omega
      split
      · have := copy_take (buf := buf) (p := p.drop (64 * (p.length / 64))) (off := 0) (n := (p.drop (64 * (p.length / 64))).length) (Nat.zero_le _) (Nat.le_refl _)
        rw [Nat.zero_add, List.take_length] at this
        rw [← hpd, this]; rfl
      · rename_i hz
        have hz : (p.drop (64 * (p.length / 64))).length = 0 := by omega
        rw [← hpd, hz, List.length_eq_zero_iff.1 hz]; rfl
  by_cases ho : m.length % 64 = 0
  · rw [if_neg (by omega)]
    exact rest m x _ _ ho h.regs h.len rfl
  rw [if_pos ho]
  have hbl := h.len
  by_cases hbig : m.length % 64 + x.length > 64
  · rw [if_pos hbig, if_neg (by omega)]
    have hcl : (copyTo st.buf (m.length % 64) x (64 - m.length % 64)).length = 64 := by rw [copy_len (by omega) (by omega)]; exact hbl
    have hcv : copyTo st.buf (m.length % 64) x (64 - m.length % 64) = m.drop (64 * (m.length / 64)) ++ x.take (64 - m.length % 64) := by
      rw [← h.buf, ← copy_take (by omega) (by omega), List.take_of_length_le (by omega)]
    have e2 : after (m ++ x.take (64 - m.length % 64)) = process st.abcd (copyTo st.buf (m.length % 64) x (64 - m.length % 64)) := by
      rw [process_eq, h.regs, hcv]
      have e3 : m ++ x.take (64 - m.length % 64) = m.take (64 * (m.length / 64)) ++ (m.drop (64 * (m.length / 64)) ++ x.take (64 - m.length % 64)) := by
        rw [← List.append_assoc, List.take_append_drop]
      have e4 : after m = after (m.take (64 * (m.length / 64))) := by
        conv_lhs => rw [← List.take_append_drop (64 * (m.length / 64)) m]
        exact after_short _ _ (by rw [List.length_take, List.length_drop]; omega)
      rw [e3, e4]
      exact after_block _ _ (by rw [List.length_take]; omega) (by rw [List.length_append, List.length_drop, List.length_take]; omega)
    exact rest (m ++ x.take (64 - m.length % 64)) (x.drop (64 - m.length % 64)) _ _ (by rw [List.length_append, List.length_take]; omega) e2.symm hcl
      (by rw [List.append_assoc, List.take_append_drop])
  · rw [if_neg hbig]
    by_cases hfull : m.length % 64 + x.length < 64
    · rw [if_pos hfull]
      refine ⟨?_, by rw [hlen]; exact hl, by rw [hlen]; exact hh, ?_, ?_⟩
      · simp only
        rw [copy_len (by omega) (Nat.le_refl _)]; exact hbl
      · rw [after_short m x hfull]; exact h.regs
      · simp only
        rw [hlen, show (m.length + x.length) % 64 = m.length % 64 + x.length by omega, copy_take (by omega) (Nat.le_refl _), h.buf,
          show 64 * ((m.length + x.length) / 64) = 64 * (m.length / 64) by omega, List.drop_append_of_le_length (by omega), List.take_length]
    · rw [if_neg hfull]
      have hcl : (copyTo st.buf (m.length % 64) x x.length).length = 64 := by rw [copy_len (by omega) (by omega)]; exact hbl
      have hcv : copyTo st.buf (m.length % 64) x x.length = m.drop (64 * (m.length / 64)) ++ x := by
        have := copy_take (buf := st.buf) (p := x) (off := m.length % 64) (n := x.length) (by omega) (by omega)
        rw [List.take_of_length_le (by omega), h.buf, List.take_length] at this
        exact this
      have e2 : after (m ++ x) = process st.abcd (copyTo st.buf (m.length % 64) x x.length) := by
        rw [process_eq, h.regs, hcv]
        have e3 : m ++ x = m.take (64 * (m.length / 64)) ++ (m.drop (64 * (m.length / 64)) ++ x) := by
          rw [← List.append_assoc, List.take_append_drop]
        have e4 : after m = after (m.take (64 * (m.length / 64))) := by
          conv_lhs => rw [← List.take_append_drop (64 * (m.length / 64)) m]
          exact after_short _ _ (by rw [List.length_take, List.length_drop]; omega)
        rw [e3, e4]
        exact after_block _ _ (by rw [List.length_take]; omega) (by rw [List.length_append, List.length_drop]; omega)
      have := rest (m ++ x) (x.drop x.length) _ _ (by rw [hlen]; omega) e2.symm hcl (by rw [List.drop_length, List.append_nil])
      exact this

/-! ### Finish -/

theorem byte_shift (w : UInt32) (j : Nat) (hj : j < 4) : (w >>> UInt32.ofNat (j <<< 3)).toUInt8 = UInt8.ofNat (w.toNat / 256 ^ j % 256) := by
  apply UInt8.toNat_inj.1
  rw [UInt32.toNat_toUInt8, UInt32.toNat_shiftRight, UInt8.toNat_ofNat']
  have : (UInt32.ofNat (j <<< 3)).toNat % 32 = 8 * j := by
    rw [UInt32.toNat_ofNat', Nat.shiftLeft_eq]; omega
  rw [this, Nat.shiftRight_eq_div_pow, Nat.pow_mul]
  show w.toNat / 256 ^ j % 256 = w.toNat / 256 ^ j % 256 % 256
  omega

theorem le4 (w : UInt32) : [(w >>> UInt32.ofNat (0 <<< 3)).toUInt8, (w >>> UInt32.ofNat (1 <<< 3)).toUInt8, (w >>> UInt32.ofNat (2 <<< 3)).toUInt8,
    (w >>> UInt32.ofNat (3 <<< 3)).toUInt8] = Rfc.le 4 w.toNat := by
  simp only [byte_shift _ _ (show 0 < 4 by omega), byte_shift _ _ (show 1 < 4 by omega), byte_shift _ _ (show 2 < 4 by omega), byte_shift _ _ (show 3 < 4 by omega), Rfc.le, Nat.div_div_eq_div_mul]
  simp

theorem le_split (x : Nat) : Rfc.le 8 x = Rfc.le 4 (x % 2 ^ 32) ++ Rfc.le 4 (x / 2 ^ 32) := by
  simp only [Rfc.le, Nat.div_div_eq_div_mul, List.cons_append, List.nil_append, List.cons.injEq, and_true]
  refine ⟨?_, ?_, ?_, ?_, ?_, ?_, ?_, ?_⟩ <;> congr 1 <;> omega

theorem digest_bytes (r : Regs) : (List.range 16).map (byteOf r.nth) =
    Rfc.le 4 r.a.toNat ++ Rfc.le 4 r.b.toNat ++ Rfc.le 4 r.c.toNat ++ Rfc.le 4 r.d.toNat := by
  rw [← le4, ← le4, ← le4, ← le4]
  rfl

theorem count_bytes (c0 c1 : UInt32) : (List.range 8).map (byteOf fun j => if j = 0 then c0 else c1) = Rfc.le 4 c0.toNat ++ Rfc.le 4 c1.toNat := by
  rw [← le4, ← le4]
  rfl

theorem pad_len {st : State} {m : List UInt8} (h : st.count0.toNat = 8 * m.length % 2 ^ 32) :
    ((((55 : UInt32) - (st.count0 >>> 3)) &&& 63) + 1).toNat = (119 - m.length % 64) % 64 + 1 := by
  have e : (st.count0 >>> 3).toNat = 8 * m.length % 2 ^ 32 / 8 := by
    rw [UInt32.toNat_shiftRight, h]
    show _ >>> (3 % 32) = _
    rw [Nat.shiftRight_eq_div_pow]
  have e2 : (((55 : UInt32) - (st.count0 >>> 3)) &&& 63).toNat = (119 - m.length % 64) % 64 := by
    rw [UInt32.toNat_and, UInt32.toNat_sub, e]
    show (2 ^ 32 - 8 * m.length % 2 ^ 32 / 8 + 55) % 2 ^ 32 &&& (2 ^ 6 - 1) = _
    rw [Nat.and_two_pow_sub_one_eq_mod]
    omega
  rw [UInt32.toNat_add, e2]
  show (_ + 1) % 2 ^ 32 = _
  omega

theorem pad_take (n : Nat) (h : n < 64) : pad.take (n + 1) = 0x80 :: List.replicate n 0 := by
  unfold pad
  rw [List.take_succ_cons, List.take_replicate, Nat.min_eq_left (by omega)]

theorem le_length (n x : Nat) : (Rfc.le n x).length = n := by
  induction n generalizing x with
  | zero => rfl
  | succ n ih => simp [Rfc.le, ih]

theorem finish_spec {st : State} {m : List UInt8} (h : Inv st m) : (finish st).2 = Rfc.md5 m := by
  unfold finish
  simp only
  rw [digest_bytes, count_bytes]
  have hp : pad.take ((((55 : UInt32) - (st.count0 >>> 3)) &&& 63) + 1).toNat = 0x80 :: List.replicate ((119 - m.length % 64) % 64) 0 := by
    rw [pad_len h.low]; exact pad_take _ (by omega)
  have hc : Rfc.le 4 st.count0.toNat ++ Rfc.le 4 st.count1.toNat = Rfc.le 8 (8 * m.length % 2 ^ 64) := by
    rw [le_split, h.low, h.high]
    congr 2 <;> omega
  rw [hp, hc]
  have i1 := append_inv (append_inv h (0x80 :: List.replicate ((119 - m.length % 64) % 64) 0)) (Rfc.le 8 (8 * m.length % 2 ^ 64))
  rw [i1.regs]
  rfl

/-! ### The interface -/

/-- The bytes a call `kwsysMD5_Append(md5, data, length)` is about: `length` bytes, or the C string at `data` if `length` is negative. -/
def Passed (memory : List UInt8) (length : Int) (x : List UInt8) : Prop :=
  (0 ≤ length → (x.length : Int) = length ∧ x <+: memory) ∧ (length < 0 → (0 : UInt8) ∉ x ∧ x ++ [0] <+: memory)

theorem kwAppend_eq {st : State} {data x : List UInt8} {n : Int} (h : Passed data n x) : kwAppend st data n = append st x := by
  unfold kwAppend
  split
  · rename_i hn
    obtain ⟨h0, t, ht⟩ := h.2 hn
    rw [← ht, List.append_assoc, List.takeWhile_append_of_pos]
    · simp
    · intro a ha
      simp only [ne_eq, decide_not, Bool.not_eq_eq_eq_not, Bool.not_true, decide_eq_false_iff_not]
      rintro rfl; exact h0 ha
  · rename_i hn
    obtain ⟨h0, t, ht⟩ := h.1 (by omega)
    rw [← ht, ← h0]
    simp

/-- C145: whatever was in the object before, Initialize, any sequence of Append calls and Finalize give the MD5 of RFC 1321 of the bytes
    passed, in whatever pieces they were passed; FinalizeHex gives its lower-case hexadecimal digits. -/
theorem C145_md5 (st : State) (hb : st.buf.length = 64) (calls : List (List UInt8 × Int × List UInt8)) (hc : ∀ c ∈ calls, Passed c.1 c.2.1 c.2.2) :
    let final := calls.foldl (fun st c => kwAppend st c.1 c.2.1) (init st)
    (finish final).2 = Rfc.md5 (calls.flatMap fun c => c.2.2) ∧
    (finishHex final).2 = (Rfc.md5 (calls.flatMap fun c => c.2.2)).flatMap fun x => [Nat.digitChar (x.toNat / 16), Nat.digitChar (x.toNat % 16)] := by
  intro final
  have key : ∀ (calls : List (List UInt8 × Int × List UInt8)) (st : State) (m : List UInt8), (∀ c ∈ calls, Passed c.1 c.2.1 c.2.2) → Inv st m →
      Inv (calls.foldl (fun st c => kwAppend st c.1 c.2.1) st) (m ++ calls.flatMap fun c => c.2.2) := by
    intro calls
    induction calls with
    | nil => intro st m _ h; simpa using h
    | cons c l ih =>
      intro st m hc h
      rw [List.foldl_cons, List.flatMap_cons, ← List.append_assoc]
      refine ih _ _ (fun c' h' => hc c' (List.mem_cons_of_mem _ h')) ?_
      rw [kwAppend_eq (hc c List.mem_cons_self)]
      exact append_inv h _
  have hi := key calls _ [] hc (init_inv st hb)
  have h1 := finish_spec hi
  rw [List.nil_append] at h1
  refine ⟨h1, ?_⟩
  unfold finishHex
  simp only
  rw [show (finish final).2 = _ from h1]
  generalize Rfc.md5 _ = l
  induction l with
  | nil => rfl
  | cons x l ih =>
    rw [toHex, List.flatMap_cons, ih]
    have : ∀ y : Fin 256, hex.getD ((UInt8.ofNat y.val) >>> 4).toNat ' ' = Nat.digitChar (y.val / 16) ∧ hex.getD ((UInt8.ofNat y.val) &&& 0xF).toNat ' ' = Nat.digitChar (y.val % 16) := by decide +kernel
    obtain ⟨a, b⟩ := this ⟨x.toNat, x.toNat_lt⟩
    simp only [UInt8.ofNat_toNat] at a b
    rw [a, b]
    rfl

/-- "ab" as two bytes and "c" as a C string: the digest of "abc" in the RFC's test suite. -/
example : let calls : List (List UInt8 × Int × List UInt8) := [([97, 98, 7], 2, [97, 98]), ([99, 0, 5], -1, [99])]
    (∀ c ∈ calls, Passed c.1 c.2.1 c.2.2) ∧
    (finishHex (calls.foldl (fun st c => kwAppend st c.1 c.2.1) (init ⟨7, 8, ⟨1, 2, 3, 4⟩, List.replicate 64 5⟩))).2 = "900150983cd24fb0d6963f7d28e17f72".toList := by
  refine ⟨?_, by decide +kernel⟩
  simp [Passed]

end Vital.MD5
