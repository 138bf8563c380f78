import Verif.Sys.Strings
/-
  Model of SystemTools::GetLineFromStream (vital/kwiversys/SystemTools.cxx:4643-4719); property C173.

  A stream is the text still to be read and its eof and fail bits (reading never fails otherwise: no badbit). `istream::getline( buffer, 1024 )` is modelled
  after the C++ standard: nothing is extracted unless the stream is good; characters are extracted until the end (eofbit), a newline (extracted, counted,
  not stored) or until 1023 characters are stored (failbit), tested in this order.
-/
namespace Vital.Lines
open Vital Vital.Strs

structure Stream where
  rest : Str
  eof : Bool := false
  fail : Bool := false
  deriving DecidableEq

inductive Stop | atEnd | newline | full
  deriving DecidableEq

/-- Characters up to the end, a newline, or the limit. -/
def takeBuf : Nat → Str → Str × Str × Stop
  | _, [] => ([], [], .atEnd)
  | 0, c :: r => if c = '\n' then ([], r, .newline) else ([], c :: r, .full)
  | k + 1, c :: r =>
    if c = '\n' then ([], r, .newline)
    else
      match takeBuf k r with
      | (st, r', w) => (c :: st, r', w)

/-- `is.getline( buffer, 1024 )`: what is stored, gcount, and the stream. -/
def getline (s : Stream) : Str × Nat × Stream :=
  if s.eof then ([], 0, { s with fail := true })
  else
    match takeBuf 1023 s.rest with
    | (st, r, .newline) => (st, st.length + 1, ⟨r, false, s.fail⟩)
    | (st, r, .full) => (st, st.length, ⟨r, false, true⟩)
    | (st, r, .atEnd) => (st, st.length, ⟨r, true, s.fail || st.isEmpty⟩)

structure St where
  str : Stream
  line : Str
  left : Int
  haveData : Bool
  haveNewline : Bool
  deriving DecidableEq

-- models: vital/kwiversys/SystemTools.cxx:4685-4710 (what is done with a buffer; `strlen( buffer )` is the length of `cstr`, and is not changed when the
-- carriage return is dropped)
def useBuf (buf : Str) (gcount : Nat) (s : St) : St :=
  let length := (cstr buf).length
  let b := if (cstr buf).getLast? = some '\r' then (cstr buf).dropLast else cstr buf
  let (b, left) :=
    if 0 < s.left then
      if s.left < length then (b.take (s.left - 1).toNat, 0) else (b, s.left - length)
    else (b, s.left)
  { s with line := s.line ++ b, left := left, haveData := true, haveNewline := if length < gcount then true else s.haveNewline }

-- models: vital/kwiversys/SystemTools.cxx:4674-4711 (the loop; its condition is evaluated at the beginning)
def loop : Nat → St → St
  | 0, s => s
  | n + 1, s =>
    if s.haveNewline = true ∨ s.left = 0 then s
    else
      match getline { s.str with fail := false } with
      | (buf, gcount, str) => if 0 < gcount then loop n (useBuf buf gcount { s with str := str }) else { s with str := str }

/-- The result of a call: the return value, the line, has_newline, and the stream. -/
structure Res where
  ok : Bool
  line : Str
  newline : Bool
  str : Stream
  deriving DecidableEq

-- models: vital/kwiversys/SystemTools.cxx:4643-4719 (GetLineFromStream; every round of the loop but the last takes something from the stream)
def getLine (is_ : Stream) (sizeLimit : Int := -1) : Res :=
  if is_.fail then ⟨false, [], false, is_⟩
  else
    let s := loop (is_.rest.length + 2) ⟨is_, [], sizeLimit, false, false⟩
    ⟨s.haveData, s.line, s.haveNewline, s.str⟩

/-! ### What the loop does with an ordinary line -/

theorem takeBuf_line : ∀ (k : Nat) (l r : Str), '\n' ∉ l → l.length ≤ k → takeBuf k (l ++ '\n' :: r) = (l, r, .newline)
  | 0, [], r, _, _ => by simp [takeBuf]
  | 0, _ :: _, _, _, h => by simp at h
  | k + 1, [], r, _, _ => by simp [takeBuf]
  | k + 1, c :: l, r, hn, hl => by
    simp only [List.mem_cons, not_or] at hn
    have := takeBuf_line k l r hn.2 (by simpa using hl)
    simp only [List.cons_append, takeBuf, if_neg (Ne.symm hn.1), this]

theorem takeBuf_full : ∀ (k : Nat) (l r : Str), '\n' ∉ l → l.length = k → r ≠ [] → r.head? ≠ some '\n' → takeBuf k (l ++ r) = (l, r, .full)
  | 0, [], c :: r, _, _, _, hr => by
    simp only [List.head?_cons, ne_eq, Option.some.injEq] at hr
    simp [takeBuf, hr]
  | 0, [], [], _, _, h, _ => absurd rfl h
  | 0, _ :: _, _, _, h, _, _ => by simp at h
  | k + 1, [], r, _, h, _, _ => by simp at h
  | k + 1, c :: l, r, hn, hl, hr, hr2 => by
    simp only [List.mem_cons, not_or] at hn
    have := takeBuf_full k l r hn.2 (by simpa using hl) hr hr2
    simp only [List.cons_append, takeBuf, if_neg (Ne.symm hn.1), this]

theorem takeBuf_end : ∀ (k : Nat) (l : Str), '\n' ∉ l → l.length ≤ k → takeBuf k l = (l, [], .atEnd)
  | _, [], _, _ => by simp [takeBuf]
  | 0, _ :: _, _, h => by simp at h
  | k + 1, c :: l, hn, hl => by
    simp only [List.mem_cons, not_or] at hn
    have := takeBuf_end k l hn.2 (by simpa using hl)
    simp only [takeBuf, if_neg (Ne.symm hn.1), this]

/-- A line as a text file has it: no newline, no NUL. -/
def Plain (l : Str) : Prop := '\n' ∉ l ∧ '\x00' ∉ l

/-- The line without a carriage return at its end. -/
def noCr (l : Str) : Str := if l.getLast? = some '\r' then l.dropLast else l

/-- No carriage return is the 1023rd, 2046th, ... character of the line, unless it is the last one. -/
def CrOk (l : Str) : Prop := ∀ i, l[i]? = some '\r' → i + 1 = l.length ∨ (i + 1) % 1023 ≠ 0

theorem plain_split {l : Str} (h : Plain l) (k : Nat) : Plain (l.take k) ∧ Plain (l.drop k) :=
  ⟨⟨fun hm => h.1 (List.mem_of_mem_take hm), fun hm => h.2 (List.mem_of_mem_take hm)⟩,
    ⟨fun hm => h.1 (List.mem_of_mem_drop hm), fun hm => h.2 (List.mem_of_mem_drop hm)⟩⟩

theorem crOk_drop {l : Str} (h : CrOk l) (hl : 1023 < l.length) : CrOk (l.drop 1023) := by
  intro i hi
  rw [List.getElem?_drop] at hi
  rcases h (1023 + i) hi with h1 | h1
  · left; simp; omega
  · right; omega

theorem noCr_drop {l : Str} {k : Nat} (hl : k < l.length) : l.take k ++ noCr (l.drop k) = noCr l := by
  unfold noCr
  have hne : l.drop k ≠ [] := by intro h; have := congrArg List.length h; simp at this; omega
  have e : (l.drop k).getLast? = l.getLast? := by
    conv_rhs => rw [← List.take_append_drop k l]
    rw [List.getLast?_append]
    cases h : (l.drop k).getLast? with
    | none => exact absurd (List.getLast?_eq_none_iff.1 h) hne
    | some x => rfl
  rw [e]
  split
  · conv_rhs => rw [← List.take_append_drop k l]
    rw [List.dropLast_append_of_ne_nil hne]
  · exact List.take_append_drop k l

theorem getline_line {l r : Str} (hn : '\n' ∉ l) (hl : l.length ≤ 1023) (f : Bool) :
    getline ⟨l ++ '\n' :: r, false, f⟩ = (l, l.length + 1, ⟨r, false, f⟩) := by
  unfold getline
  simp only [Bool.false_eq_true, ↓reduceIte, takeBuf_line 1023 l r hn hl]

theorem getline_end {l : Str} (hn : '\n' ∉ l) (hl : l.length ≤ 1023) (f : Bool) :
    getline ⟨l, false, f⟩ = (l, l.length, ⟨[], true, f || l.isEmpty⟩) := by
  unfold getline
  simp only [Bool.false_eq_true, ↓reduceIte, takeBuf_end 1023 l hn hl]

theorem getline_full {l r : Str} (hn : '\n' ∉ l) (hl : l.length = 1023) (hr : r ≠ []) (hr2 : r.head? ≠ some '\n') (f : Bool) :
    getline ⟨l ++ r, false, f⟩ = (l, l.length, ⟨r, false, true⟩) := by
  unfold getline
  simp only [Bool.false_eq_true, ↓reduceIte, takeBuf_full 1023 l r hn hl hr hr2]

theorem useBuf_plain {buf : Str} (h0 : '\x00' ∉ buf) (g : Nat) (s : St) (hl : s.left < 0) :
    useBuf buf g s = { s with line := s.line ++ noCr buf, haveData := true, haveNewline := if buf.length < g then true else s.haveNewline } := by
  unfold useBuf noCr
  rw [cstr_eq h0]
  have : ¬ (0 < s.left) := by omega
  simp only [this, if_false]

theorem loop_newline (n : Nat) (s : St) (h : s.haveNewline = true) : loop n s = s := by
  cases n with
  | zero => rfl
  | succ n => unfold loop; rw [if_pos (.inl h)]

/-- The loop on a line with a newline behind it. -/
theorem loop_line (n : Nat) : ∀ (l r acc : Str) (f d : Bool) (left : Int), Plain l → CrOk l → left < 0 → l.length < n →
    ∃ f', (loop n ⟨⟨l ++ '\n' :: r, false, f⟩, acc, left, d, false⟩) = ⟨⟨r, false, f'⟩, acc ++ noCr l, left, true, true⟩ ∧ f' = false := by
  induction n with
  | zero => intro l r acc f d left _ _ _ hn; omega
  | succ n ih =>
    intro l r acc f d left hp hc hneg hn
    unfold loop
    rw [if_neg (by simp; omega)]
    by_cases hlen : l.length ≤ 1023
    · simp only [getline_line hp.1 hlen]
      rw [if_pos (by omega), useBuf_plain hp.2 _ _ hneg, loop_newline]
      · exact ⟨false, by simp, rfl⟩
      · simp
    · have hlen : 1023 < l.length := by omega
      obtain ⟨ht, hd⟩ := plain_split hp 1023
      have e : l ++ '\n' :: r = l.take 1023 ++ (l.drop 1023 ++ '\n' :: r) := by
        rw [← List.append_assoc, List.take_append_drop]
      have hdne : l.drop 1023 ≠ [] := by intro h; have := congrArg List.length h; simp at this; omega
      have hh : (l.drop 1023 ++ '\n' :: r).head? ≠ some '\n' := by
        cases hx : l.drop 1023 with
        | nil => exact absurd hx hdne
        | cons x y =>
          simp only [List.cons_append, List.head?_cons, ne_eq, Option.some.injEq]
          rintro rfl
          exact hd.1 (by rw [hx]; simp)
      have hcr : noCr (l.take 1023) = l.take 1023 := by
        unfold noCr
        rw [if_neg]
        intro hg
        rw [List.getLast?_eq_getElem?, List.length_take, Nat.min_eq_left (by omega), List.getElem?_take_of_lt (by omega)] at hg
        rcases hc _ hg with h | h <;> omega
      rw [e]
      simp only [getline_full ht.1 (by simp; omega) (by simp) hh]
      rw [if_pos (by simp; omega), useBuf_plain ht.2 _ _ hneg, hcr]
      have := ih (l.drop 1023) r (acc ++ l.take 1023) true true left hd (crOk_drop hc hlen) hneg (by simp; omega)
      simp only [Nat.lt_irrefl, if_false]
      obtain ⟨f', h1, h2⟩ := this
      exact ⟨f', by rw [h1, List.append_assoc, noCr_drop hlen], h2⟩

/-- The loop on the last line, without a newline behind it. -/
theorem loop_last (n : Nat) : ∀ (l acc : Str) (f d : Bool) (left : Int), Plain l → CrOk l → left < 0 → l.length + 1 < n →
    (loop n ⟨⟨l, false, f⟩, acc, left, d, false⟩) = ⟨⟨[], true, true⟩, acc ++ noCr l, left, d || !l.isEmpty, false⟩ := by
  induction n with
  | zero => intro l acc f d left _ _ _ hn; omega
  | succ n ih =>
    intro l acc f d left hp hc hneg hn
    unfold loop
    rw [if_neg (by simp; omega)]
    by_cases hlen : l.length ≤ 1023
    · simp only [getline_end hp.1 hlen]
      by_cases hl0 : l = []
      · subst hl0
        simp [noCr]
      · have : 0 < l.length := List.length_pos_iff.2 hl0
        rw [if_pos this, useBuf_plain hp.2 _ _ hneg]
        obtain ⟨m, rfl⟩ : ∃ m, n = m + 1 := ⟨n - 1, by omega⟩
        unfold loop
        have hle : left ≠ 0 := by omega
        simp [hle, getline, hl0]
    · have hlen : 1023 < l.length := by omega
      obtain ⟨ht, hd⟩ := plain_split hp 1023
      have hdne : l.drop 1023 ≠ [] := by intro h; have := congrArg List.length h; simp at this; omega
      have hh : (l.drop 1023).head? ≠ some '\n' := by
        cases hx : l.drop 1023 with
        | nil => exact absurd hx hdne
        | cons x y =>
          simp only [List.head?_cons, ne_eq, Option.some.injEq]
          rintro rfl
          exact hd.1 (by rw [hx]; simp)
      have hcr : noCr (l.take 1023) = l.take 1023 := by
        unfold noCr
        rw [if_neg]
        intro hg
        rw [List.getLast?_eq_getElem?, List.length_take, Nat.min_eq_left (by omega), List.getElem?_take_of_lt (by omega)] at hg
        rcases hc _ hg with h | h <;> omega
      have e : l = l.take 1023 ++ l.drop 1023 := (List.take_append_drop _ _).symm
      have hg := getline_full ht.1 (by simp; omega) hdne hh false
      rw [← e] at hg
      simp only [hg]
      rw [if_pos (by simp; omega), useBuf_plain ht.2 _ _ hneg, hcr]
      have := ih (l.drop 1023) (acc ++ l.take 1023) true true left hd (crOk_drop hc hlen) hneg (by simp; omega)
      simp only [Nat.lt_irrefl, if_false]
      rw [this, List.append_assoc, noCr_drop hlen]
      have : l ≠ [] := by intro h; subst h; simp at hlen
      simp [this]

/-- C173. A line of any length with a newline behind it is read entirely, without the newline and without a carriage return in front of it, and the stream
is left good at the beginning of the next line. -/
theorem C173_line_partial (l r : Str) (hp : Plain l) (hc : CrOk l) :
    getLine ⟨l ++ '\n' :: r, false, false⟩ = ⟨true, noCr l, true, ⟨r, false, false⟩⟩ := by
  obtain ⟨f', h1, h2⟩ := loop_line ((l ++ '\n' :: r).length + 2) l r [] false false (-1) hp hc (by decide) (by simp; omega)
  unfold getLine
  simp only [Bool.false_eq_true, ↓reduceIte, h1, h2, List.nil_append]

/-- C173. What is left without a newline at the end of the stream is the last line; without anything left the call returns false. Then every further call
returns false. -/
theorem C173_last_partial (l : Str) (hp : Plain l) (hc : CrOk l) :
    getLine ⟨l, false, false⟩ = ⟨!l.isEmpty, noCr l, false, ⟨[], true, true⟩⟩ := by
  have h1 := loop_last (l.length + 2) l [] false false (-1) hp hc (by decide) (by omega)
  unfold getLine
  simp only [Bool.false_eq_true, ↓reduceIte, h1, List.nil_append, Bool.false_or]

theorem C173_failed (s : Stream) (limit : Int) (h : s.fail = true) : getLine s limit = ⟨false, [], false, s⟩ := by
  unfold getLine; rw [if_pos h]

/-- Reading line by line until a call returns false. -/
def readAll : Nat → Stream → List Str
  | 0, _ => []
  | n + 1, s => if (getLine s).ok then (getLine s).line :: readAll n (getLine s).str else []

/-- C173. A text of lines, with or without a newline at its end, is read as just these lines. -/
theorem C173_text_partial (ls : List Str) (last : Str) (hls : ∀ l ∈ ls, Plain l ∧ CrOk l) (hlast : Plain last ∧ CrOk last) :
    ∀ n, ls.length + 1 < n → readAll n ⟨ls.flatMap (· ++ ['\n']) ++ last, false, false⟩ = ls.map noCr ++ (if last = [] then [] else [noCr last]) := by
  induction ls with
  | nil =>
    intro n hn
    obtain ⟨m, rfl⟩ : ∃ m, n = m + 2 := ⟨n - 2, by simp at hn; omega⟩
    simp only [List.flatMap_nil, List.nil_append, List.map_nil]
    unfold readAll
    rw [C173_last_partial last hlast.1 hlast.2]
    by_cases h : last = []
    · simp [h]
    · have : last.isEmpty = false := by simpa using h
      simp only [this, Bool.not_false, ↓reduceIte, if_neg h]
      unfold readAll
      rw [C173_failed _ _ rfl]
      simp
  | cons l ls ih =>
    intro n hn
    obtain ⟨m, rfl⟩ : ∃ m, n = m + 1 := ⟨n - 1, by omega⟩
    have hl := hls l (by simp)
    have e : (l :: ls).flatMap (· ++ ['\n']) ++ last = l ++ '\n' :: (ls.flatMap (· ++ ['\n']) ++ last) := by simp
    rw [e]
    unfold readAll
    rw [C173_line_partial l _ hl.1 hl.2]
    simp only [↓reduceIte, List.map_cons, List.cons_append]
    rw [ih (fun x hx => hls x (by simp [hx])) m (by simp at hn; omega)]

theorem useBuf_left {buf : Str} {g : Nat} {s : St} (hs : 0 < s.left) :
    0 ≤ (useBuf buf g s).left ∧ ((useBuf buf g s).line.length : Int) + (useBuf buf g s).left ≤ s.line.length + s.left := by
  unfold useBuf
  have hb : (if (cstr buf).getLast? = some '\r' then (cstr buf).dropLast else cstr buf).length ≤ (cstr buf).length := by
    split <;> simp
  generalize (if (cstr buf).getLast? = some '\r' then (cstr buf).dropLast else cstr buf) = b at hb
  simp only [hs, if_true]
  by_cases h : s.left < ((cstr buf).length : Int)
  · simp only [h, if_true]
    have h1 : ((s.left - 1).toNat : Int) = s.left - 1 := Int.toNat_of_nonneg (by omega)
    have h2 : (b.take (s.left - 1).toNat).length ≤ (s.left - 1).toNat := List.length_take_le _ _
    refine ⟨by omega, ?_⟩
    simp only [List.length_append]
    push_cast
    omega
  · simp only [h, if_false]
    refine ⟨by omega, ?_⟩
    simp only [List.length_append]
    push_cast
    omega

theorem loop_limit (n : Nat) : ∀ (s : St), 0 ≤ s.left → ((loop n s).line.length : Int) ≤ s.line.length + s.left := by
  induction n with
  | zero => intro s h; unfold loop; omega
  | succ n ih =>
    intro s h
    unfold loop
    split
    · omega
    · rename_i hc
      rcases hg : getline { s.str with fail := false } with ⟨buf, g, str⟩
      simp only
      split
      · obtain ⟨h1, h2⟩ := useBuf_left (buf := buf) (g := g) (s := { s with str := str }) (by simp only; omega)
        have := ih _ h1
        have e1 : ({ s with str := str } : St).line = s.line := rfl
        have e2 : ({ s with str := str } : St).left = s.left := rfl
        rw [e1, e2] at h2
        omega
      · show (s.line.length : Int) ≤ _
        omega

/-- C173. The line is never longer than a limit that is not negative. -/
theorem C173_limit (s : Stream) (limit : Int) (h : 0 ≤ limit) : ((getLine s limit).line.length : Int) ≤ limit := by
  unfold getLine
  split
  · simpa using h
  · have := loop_limit (s.rest.length + 2) ⟨s, [], limit, false, false⟩ h
    simpa using this

/-- C173 refuted: a carriage return within a line is lost if it is the 1023rd character. -/
theorem C173_cr_refuted : ∃ l : Str, Plain l ∧ '\r' ∈ l ∧ l.getLast? = some 'b' ∧ '\r' ∉ (getLine ⟨l ++ ['\n'], false, false⟩).line := by
  refine ⟨List.replicate 1022 'a' ++ ['\r', 'b'], ⟨?_, ?_⟩, ?_, ?_, ?_⟩ <;> decide +kernel

/-- C173 refuted: a NUL ends the line for the caller, has_newline is true, and the rest of the real line is lost. -/
theorem C173_nul_refuted :
    getLine ⟨['a', '\x00', 'b', '\n', 'c'], false, false⟩ = ⟨true, c!"a", true, ⟨c!"c", false, false⟩⟩ ∧
    getLine ⟨['a', '\x00', 'b'], false, false⟩ = ⟨true, c!"a", true, ⟨[], true, false⟩⟩ := by decide +kernel

/-- C173 refuted: of a line longer than the limit one character less than the limit is given, the rest of what was read is lost, and if the buffer was full
the stream is left failed, so that the next call returns false although there is more to read. -/
theorem C173_limit_refuted :
    getLine ⟨c!"abcdef\ngh\n", false, false⟩ 3 = ⟨true, c!"ab", true, ⟨c!"gh\n", false, false⟩⟩ ∧
    (getLine (getLine ⟨List.replicate 1024 'a' ++ c!"\nb\n", false, false⟩ 10).str).ok = false := by decide +kernel

example : Plain (c!"abc\r") ∧ CrOk (c!"abc\r") := by
  refine ⟨⟨by decide, by decide⟩, ?_⟩
  intro i hi
  have : i < 4 := by
    by_contra h
    rw [List.getElem?_eq_none (by simp; omega)] at hi
    cases hi
  right
  omega

end Vital.Lines
