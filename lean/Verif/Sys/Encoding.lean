import Verif.Basic.Str
/-
  Encoding: conversions between narrow and wide strings (vital/kwiversys/EncodingCXX.cxx, EncodingC.c, without _WIN32) and
  Encoding::CommandLineArguments, which owns copies of the arguments of a program; properties C262 and C263.
-/
namespace Vital.Sys.Enc
open Vital

/-- A wide character (the terminating one is 0). -/
abbrev W := Nat

/-- The NUL character. -/
def nul : Char := Char.ofNat 0

/-- The encoding of the current locale, as mbstowcs and wcstombs see it: whole strings that end before the first NUL; `none` is a sequence that is
not valid, or a character that has no representation. -/
structure Codec where
  decode : Str → Option (List W)
  encode : List W → Option Str
  decode_nonzero : ∀ s w, nul ∉ s → decode s = some w → 0 ∉ w
  encode_nonul : ∀ w s, 0 ∉ w → encode w = some s → nul ∉ s
  decode_nil : decode [] = some []
  encode_nil : encode [] = some []

/-- (size_t)-1 -/
def sizeMax : Nat := 18446744073709551615

-- models: std::string::c_str read as a C string, and likewise for wide strings
def cstr (s : Str) : Str := s.takeWhile (fun c => c != nul)
def wcstr (w : List W) : List W := w.takeWhile (fun c => c != 0)

/-- Writing a string over the beginning of a buffer. -/
def over {α : Type} (x buf : List α) : List α := x ++ buf.drop x.length

-- models: mbstowcs, wcstombs (through vital/kwiversys/EncodingC.c:27-39, 57-69) with a buffer: at most n characters, the terminating one only if
-- there is room; the result is the number of characters without the terminating one
def convert {α β : Type} (f : List α → Option (List β)) (zero : β) (src : Option (List α)) (dest : Option (List β)) (n : Nat) : Nat × Option (List β) :=
  match src with
  | none => (sizeMax, dest)
  | some s => match f s with
    | none => (sizeMax, dest)
    | some w => match dest with
      | none => (w.length, none)
      | some buf => (min w.length n, some (over ((w ++ [zero]).take n) buf))

-- models: the + 1 of a size_t at vital/kwiversys/EncodingCXX.cxx:157, 172 and vital/kwiversys/EncodingC.c:74
def succ64 (n : Nat) : Nat := (n + 1) % (sizeMax + 1)

-- models: vital/kwiversys/EncodingCXX.cxx:154-167 (ToWide from a C string); `none` is a null pointer
def toWideC (k : Codec) (s : Option Str) : List W :=
  let length := succ64 (convert k.decode 0 s none 0).1
  if 0 < length then
    let r := convert k.decode 0 s (some (List.replicate length 0)) length
    if 0 < r.1 then wcstr (r.2.getD []) else []
  else []

-- models: vital/kwiversys/EncodingCXX.cxx:169-182 (ToNarrow from a C string)
def toNarrowC (k : Codec) (w : Option (List W)) : Str :=
  let length := succ64 (convert k.encode nul w none 0).1
  if 0 < length then
    let r := convert k.encode nul w (some (List.replicate length nul)) length
    if 0 < r.1 then cstr (r.2.getD []) else []
  else []

-- models: vital/kwiversys/EncodingCXX.cxx:144-152 (ToWide, ToNarrow from strings)
def toWide (k : Codec) (s : Str) : List W := toWideC k (some (cstr s))
def toNarrow (k : Codec) (w : List W) : Str := toNarrowC k (some (wcstr w))

-- models: vital/kwiversys/EncodingC.c:71-85 (DupToNarrow); the block is what malloc gave (`junk`, of the length asked for), `none` is a null pointer
def dupToNarrow (k : Codec) (w : Option (List W)) (mallocs : Nat → Option (List Char)) : Option (List Char) :=
  let length := succ64 (convert k.encode nul w none 0).1
  if 0 < length then
    (mallocs length).map (fun junk => ((convert k.encode nul w (some (over [nul] junk)) length).2).getD [])
  else none

/-! ### Specification -/

/-- The codec is one to one where it is defined (as UTF-8 is). -/
def Faithful (k : Codec) : Prop := (∀ s w, nul ∉ s → k.decode s = some w → k.encode w = some s)

theorem succ64_small {n : Nat} (h : n < sizeMax) : succ64 n = n + 1 := Nat.mod_eq_of_lt (by omega)
theorem succ64_max : succ64 sizeMax = 0 := by decide

theorem takeWhile_stop {α : Type} (p : α → Bool) (x rest : List α) (z : α) (hx : ∀ a ∈ x, p a = true) (hz : p z = false) :
    (x ++ z :: rest).takeWhile p = x := by
  induction x with
  | nil => simp [hz]
  | cons a x ih =>
    have h1 : p a = true := hx a (List.mem_cons_self)
    simp only [List.cons_append, List.takeWhile_cons, h1, if_true]
    rw [ih (fun b hb => hx b (List.mem_cons_of_mem _ hb))]

theorem convert_back {α β : Type} (f : List α → Option (List β)) (zero : β) (p : β → Bool) (s : List α) (w buf : List β) (hf : f s = some w)
    (hw : ∀ a ∈ w, p a = true) (hz : p zero = false) (hb : buf.length = w.length + 1) :
    (convert f zero (some s) (some buf) (w.length + 1)) = (w.length, some (w ++ [zero])) ∧ (w ++ [zero]).takeWhile p = w := by
  constructor
  · simp only [convert, hf]
    have h1 : (w ++ [zero]).take (w.length + 1) = w ++ [zero] := List.take_of_length_le (by simp)
    rw [h1]
    simp only [over, List.length_append, List.length_cons, List.length_nil]
    rw [List.drop_of_length_le (by omega), List.append_nil, Nat.min_eq_left (by omega)]
  · exact takeWhile_stop p w [] zero hw hz

theorem back_of {α β : Type} (f : List α → Option (List β)) (zero : β) (p : β → Bool) (s : List α) (hz : p zero = false)
    (hne : ∀ w, f s = some w → ∀ a ∈ w, p a = true) (hlen : ∀ w, f s = some w → w.length < sizeMax) :
    (let length := succ64 (convert f zero (some s) none 0).1
     if 0 < length then
       let r := convert f zero (some s) (some (List.replicate length zero)) length
       if 0 < r.1 then (r.2.getD []).takeWhile p else []
     else []) = (f s).getD [] := by
  cases hf : f s with
  | none =>
    simp only [convert, hf, succ64_max]
    rfl
  | some w =>
    have h1 : (convert f zero (some s) none 0).1 = w.length := by simp [convert, hf]
    have h2 := convert_back f zero p s w (List.replicate (w.length + 1) zero) hf (hne w hf) hz (by simp)
    rw [h1, succ64_small (hlen w hf)]
    simp only
    rw [if_pos (Nat.succ_pos _), h2.1]
    simp only [Option.getD_some]
    rw [h2.2]
    cases w with
    | nil => rfl
    | cons a w => simp

theorem mem_takeWhile {α : Type} (p : α → Bool) (l : List α) : ∀ a ∈ l.takeWhile p, p a = true := by
  induction l with
  | nil => intro a h; cases h
  | cons b l ih =>
    intro a h
    by_cases hb : p b = true
    · simp only [List.takeWhile_cons, hb, if_true, List.mem_cons] at h
      rcases h with rfl | h
      · exact hb
      · exact ih a h
    · simp only [List.takeWhile_cons, hb] at h
      cases h

theorem cstr_nonul (s : Str) : nul ∉ cstr s := by
  intro h
  have := mem_takeWhile _ _ _ h
  simp at this

theorem wcstr_nonzero (w : List W) : 0 ∉ wcstr w := by
  intro h
  have := mem_takeWhile _ _ _ h
  simp at this

theorem cstr_of_nonul (s : Str) (h : nul ∉ s) : cstr s = s := by
  induction s with
  | nil => rfl
  | cons a s ih =>
    simp only [List.mem_cons, not_or] at h
    have ha : (a != nul) = true := by simpa using fun e => h.1 e.symm
    show List.takeWhile _ (a :: s) = a :: s
    rw [List.takeWhile_cons, if_pos ha]
    exact congrArg _ (ih h.2)

theorem wcstr_of_nonzero (s : List W) (h : 0 ∉ s) : wcstr s = s := by
  induction s with
  | nil => rfl
  | cons a s ih =>
    simp only [List.mem_cons, not_or] at h
    have ha : (a != 0) = true := by simpa using fun e => h.1 e.symm
    show List.takeWhile _ (a :: s) = a :: s
    rw [List.takeWhile_cons, if_pos ha]
    exact congrArg _ (ih h.2)

/-- **C262**: ToWide gives the decoding of the string up to its first NUL, whole, and the empty string where there is none; nothing is cut off and
nothing is read beyond the buffer. -/
theorem C262_wide (k : Codec) (s : Str) (hlen : ∀ w, k.decode (s.takeWhile (· != nul)) = some w → w.length < sizeMax) :
    toWide k s = (k.decode (s.takeWhile (· != nul))).getD [] := by
  refine back_of k.decode 0 (fun c => c != 0) (cstr s) (by decide) (fun w hw a ha => ?_) hlen
  have := k.decode_nonzero _ _ (cstr_nonul s) hw
  simp only [bne_iff_ne]
  intro e; exact this (e ▸ ha)

/-- **C262** (back): likewise ToNarrow. -/
theorem C262_narrow (k : Codec) (w : List W) (hlen : ∀ s, k.encode (w.takeWhile (· != 0)) = some s → s.length < sizeMax) :
    toNarrow k w = (k.encode (w.takeWhile (· != 0))).getD [] := by
  refine back_of k.encode nul (fun c => c != nul) (wcstr w) (by decide) (fun s hs a ha => ?_) hlen
  have := k.encode_nonul _ _ (wcstr_nonzero w) hs
  simp only [bne_iff_ne]
  intro e; exact this (e ▸ ha)

/-- **C262** (there and back): a valid string without NUL comes back from the wide string as it was. -/
theorem C262_round_trip (k : Codec) (hk : Faithful k) (s : Str) (w : List W) (hn : nul ∉ s) (hw : k.decode s = some w)
    (h1 : s.length < sizeMax) (h2 : w.length < sizeMax) : toNarrow k (toWide k s) = s := by
  have hz := k.decode_nonzero _ _ hn hw
  have e1 : s.takeWhile (· != nul) = s := cstr_of_nonul s hn
  have e2 : w.takeWhile (· != 0) = w := wcstr_of_nonzero w hz
  have e : toWide k s = w := by
    rw [C262_wide k s (by rw [e1, hw]; intro w' h; cases h; exact h2), e1, hw]; rfl
  rw [e, C262_narrow k w (by rw [e2, hk s w hn hw]; intro s' h; cases h; exact h1), e2, hk s w hn hw]; rfl

/-- **C262** (null and invalid): a null pointer and an invalid string give the empty string. -/
theorem C262_null (k : Codec) : toWideC k none = [] ∧ toNarrowC k none = [] := by
  simp only [toWideC, toNarrowC, convert, succ64_max]
  exact ⟨rfl, rfl⟩

/-- **C262** (copies): DupToNarrow gives null for a null pointer, a string without encoding or when there is no memory; else the encoding with its
terminating NUL, exactly filling the block. -/
theorem C262_dup (k : Codec) (w : Option (List W)) (mallocs : Nat → Option (List Char)) (hm : ∀ n b, mallocs n = some b → b.length = n)
    (hlen : ∀ s x, w = some x → k.encode x = some s → s.length < sizeMax) :
    dupToNarrow k w mallocs = match w.bind k.encode with
      | none => none
      | some s => (mallocs (s.length + 1)).map (fun _ => s ++ [nul]) := by
  cases w with
  | none =>
    simp only [dupToNarrow, convert, succ64_max]
    rfl
  | some x =>
    simp only [dupToNarrow, Option.bind_some]
    cases he : k.encode x with
    | none =>
      have h1 : (convert k.encode nul (some x) none 0).1 = sizeMax := by simp [convert, he]
      rw [h1, succ64_max]
      rfl
    | some s =>
      have h1 : (convert k.encode nul (some x) none 0).1 = s.length := by simp [convert, he]
      rw [h1, succ64_small (hlen s x rfl he)]
      rw [if_pos (Nat.succ_pos _)]
      simp only
      cases hb : mallocs (s.length + 1) with
      | none => rfl
      | some b =>
        have hl : (over [nul] b).length = s.length + 1 := by
          have := hm _ _ hb
          simp only [over, List.length_append, List.length_drop, List.length_cons, List.length_nil]
          omega
        simp only [Option.map_some]
        have h3 : convert k.encode nul (some x) (some (over [nul] b)) (s.length + 1) = (s.length, some (s ++ [nul])) := by
          simp only [convert, he]
          have h1 : (s ++ [nul]).take (s.length + 1) = s ++ [nul] := List.take_of_length_le (by simp)
          rw [h1]
          have h4 : over (s ++ [nul]) (over [nul] b) = s ++ [nul] := by
            show (s ++ [nul]) ++ (over [nul] b).drop (s ++ [nul]).length = _
            rw [List.drop_of_length_le (by rw [hl]; simp), List.append_nil]
          rw [h4, Nat.min_eq_left (by omega)]
        rw [h3]
        rfl

theorem ofNat_small : ∀ c : Nat, c < 128 → (Char.ofNat c).toNat = c := by decide +kernel

/-- The "C" locale: the first 128 characters. -/
def ascii : Codec where
  decode s := if s.all (fun c => c.toNat < 128) then some (s.map Char.toNat) else none
  encode w := if w.all (fun c => decide (c < 128)) then some (w.map Char.ofNat) else none
  decode_nonzero := by
    intro s w hn h
    split at h
    · cases h
      intro h0
      obtain ⟨c, hc, e⟩ := List.mem_map.mp h0
      refine hn ?_
      have : c = nul := Char.toNat_inj.mp e
      rw [← this]; exact hc
    · cases h
  encode_nonul := by
    intro w s hz h
    split at h
    · rename_i ha
      cases h
      intro h0
      obtain ⟨c, hc, e⟩ := List.mem_map.mp h0
      have h1 := of_decide_eq_true (List.all_eq_true.mp ha c hc)
      refine hz ?_
      have h2 : (Char.ofNat c).toNat = nul.toNat := by rw [e]
      have h3 : (Char.ofNat c).toNat = c := ofNat_small c h1
      rw [h3] at h2
      rw [show (0 : Nat) = c from by rw [h2]; rfl]; exact hc
    · cases h
  decode_nil := rfl
  encode_nil := rfl

example : Faithful ascii := by
  intro s w _ h
  simp only [ascii] at h ⊢
  split at h
  · rename_i ha
    cases h
    have h1 : (s.map Char.toNat).all (fun c => decide (c < 128)) = true := by
      rw [List.all_map]; exact ha
    rw [if_pos h1, List.map_map]
    have h2 : (Char.ofNat ∘ Char.toNat) = id := by funext c; exact Char.ofNat_toNat c
    rw [h2, List.map_id]
  · cases h

example : toWide ascii (c!"ab") = [97, 98] ∧ toNarrow ascii [97, 98] = c!"ab" ∧ toNarrow ascii [97, 8364] = [] := by decide +kernel

end Vital.Sys.Enc
