import Verif.Sys.Strings2
/-
  Properties C169 (prefixes, suffixes, last occurrence), C170 (CountChar, RemoveChars, ReplaceChars, AppendStrings), C171 (MakeCidentifier) and
  C172 (Strucmp) of the string functions of vital/kwiversys/SystemTools.cxx; see Strings.lean.
-/
namespace Vital.Strs
open Vital

/-! ### Prefixes and suffixes -/

/-- `!strncmp( a, b, n )`; behind the end of a text there is a NUL, where the comparison ends. -/
def strncmpEq : Nat → Str → Str → Bool
  | 0, _, _ => true
  | n + 1, a, b => a.headD '\x00' == b.headD '\x00' && (a.headD '\x00' == '\x00' || strncmpEq n a.tail b.tail)

-- models: vital/kwiversys/SystemTools.cxx:1729-1750 (StringStartsWith; with a std::string as first argument, str1.size() is the whole length)
def stringStartsWith (str1 str2 : Option Str) : Bool :=
  match str1, str2 with
  | some s, some p => p.length ≤ s.length && strncmpEq p.length s p
  | _, _ => false

-- models: vital/kwiversys/SystemTools.cxx:1752-1773 (StringEndsWith)
def stringEndsWith (str1 str2 : Option Str) : Bool :=
  match str1, str2 with
  | some s, some p => p.length ≤ s.length && strncmpEq p.length (s.drop (s.length - p.length)) p
  | _, _ => false

-- models: vital/kwiversys/SystemTools.cxx:1786-1794 (the loop of FindLastString, from position k down to 0)
def findLastLoop (s p : Str) : Nat → Option Nat
  | 0 => if strncmpEq p.length s p then some 0 else none
  | k + 1 => if strncmpEq p.length (s.drop (k + 1)) p then some (k + 1) else findLastLoop s p k

-- models: vital/kwiversys/SystemTools.cxx:1775-1798 (FindLastString; the result is a position in str1)
def findLastString (str1 str2 : Option Str) : Option Nat :=
  match str1, str2 with
  | some s, some p => if p.length ≤ s.length then findLastLoop s p (s.length - p.length) else none
  | _, _ => none

theorem strncmpEq_iff : ∀ (p s : Str), '\x00' ∉ p → (strncmpEq p.length s p = true ↔ p <+: s)
  | [], s, _ => by simp [strncmpEq]
  | c :: p, [], h => by
    simp only [List.mem_cons, not_or] at h
    simp only [List.length_cons, strncmpEq, List.headD_nil, List.headD_cons, Bool.and_eq_true, beq_iff_eq, List.prefix_nil]
    constructor
    · intro hh; exact absurd hh.1 h.1
    · intro hh; cases hh
  | c :: p, a :: s, h => by
    simp only [List.mem_cons, not_or] at h
    have ih := strncmpEq_iff p s h.2
    simp only [List.length_cons, strncmpEq, List.headD_cons, List.tail_cons, Bool.and_eq_true, Bool.or_eq_true, beq_iff_eq, List.cons_prefix_cons]
    rw [ih]
    constructor
    · rintro ⟨rfl, h0 | h1⟩
      · exact absurd h0.symm h.1
      · exact ⟨rfl, h1⟩
    · rintro ⟨rfl, h1⟩
      exact ⟨rfl, .inr h1⟩

/-- C169. StringStartsWith says whether the second text (a C string) is a prefix of the first (any string). -/
theorem C169_starts (s p : Str) (hp : '\x00' ∉ p) : stringStartsWith (some s) (some p) = true ↔ p <+: s := by
  unfold stringStartsWith
  simp only [Bool.and_eq_true, decide_eq_true_eq]
  rw [strncmpEq_iff p s hp]
  exact ⟨fun h => h.2, fun h => ⟨h.length_le, h⟩⟩

/-- C169. StringEndsWith says whether the second text (a C string) is a suffix of the first (any string). -/
theorem C169_ends (s p : Str) (hp : '\x00' ∉ p) : stringEndsWith (some s) (some p) = true ↔ p <:+ s := by
  unfold stringEndsWith
  simp only [Bool.and_eq_true, decide_eq_true_eq]
  rw [strncmpEq_iff p _ hp]
  constructor
  · rintro ⟨hl, t, ht⟩
    have : t = [] := by
      have := congrArg List.length ht
      simp at this
      apply List.length_eq_zero_iff.1; omega
    subst this
    refine ⟨s.take (s.length - p.length), ?_⟩
    rw [List.append_nil] at ht
    conv_rhs => rw [← List.take_append_drop (s.length - p.length) s]
    rw [← ht]
  · rintro ⟨t, rfl⟩
    refine ⟨by simp, ?_⟩
    have : (t ++ p).length - p.length = t.length := by simp
    rw [this, List.drop_left]

/-- C169. A null pointer neither starts nor ends with anything, and has no occurrence of anything. -/
theorem C169_null (x : Option Str) :
    stringStartsWith none x = false ∧ stringStartsWith x none = false ∧ stringEndsWith none x = false ∧ stringEndsWith x none = false ∧
      findLastString none x = none ∧ findLastString x none = none := by
  cases x <;> exact ⟨rfl, rfl, rfl, rfl, rfl, rfl⟩

theorem findLastLoop_some {s p : Str} (hp : '\x00' ∉ p) : ∀ {k j : Nat}, findLastLoop s p k = some j →
    j ≤ k ∧ p <+: s.drop j ∧ ∀ i, j < i → i ≤ k → ¬ p <+: s.drop i
  | 0, j, h => by
    unfold findLastLoop at h
    split at h
    · rename_i hm
      cases h
      exact ⟨Nat.le_refl _, (strncmpEq_iff _ _ hp).1 hm, fun i h1 h2 => by omega⟩
    · cases h
  | k + 1, j, h => by
    unfold findLastLoop at h
    split at h
    · rename_i hm
      cases h
      exact ⟨Nat.le_refl _, (strncmpEq_iff _ _ hp).1 hm, fun i h1 h2 => by omega⟩
    · rename_i hm
      obtain ⟨h1, h2, h3⟩ := findLastLoop_some hp h
      refine ⟨by omega, h2, fun i hi1 hi2 => ?_⟩
      by_cases he : i = k + 1
      · subst he; intro hc; exact hm ((strncmpEq_iff _ _ hp).2 hc)
      · exact h3 i hi1 (by omega)

theorem findLastLoop_none {s p : Str} (hp : '\x00' ∉ p) : ∀ {k : Nat}, findLastLoop s p k = none → ∀ i, i ≤ k → ¬ p <+: s.drop i
  | 0, h, i, hi => by
    unfold findLastLoop at h
    split at h
    · cases h
    · rename_i hm
      have : i = 0 := by omega
      subst this
      intro hc; exact hm ((strncmpEq_iff _ _ hp).2 (by simpa using hc))
  | k + 1, h, i, hi => by
    unfold findLastLoop at h
    split at h
    · cases h
    · rename_i hm
      by_cases he : i = k + 1
      · subst he; intro hc; exact hm ((strncmpEq_iff _ _ hp).2 hc)
      · exact findLastLoop_none hp h i (by omega)

/-- C169. FindLastString points to the last occurrence, and gives NULL just when there is none. -/
theorem C169_last (s p : Str) (hp : '\x00' ∉ p) :
    (∀ k, findLastString (some s) (some p) = some k ↔
      (∃ a b, s = a ++ p ++ b ∧ a.length = k) ∧ ∀ a b, s = a ++ p ++ b → a.length ≤ k) ∧
    (findLastString (some s) (some p) = none ↔ ¬ p <:+: s) := by
  have occ : ∀ i, i ≤ s.length → (p <+: s.drop i ↔ ∃ a b, s = a ++ p ++ b ∧ a.length = i) := by
    intro i hi
    constructor
    · rintro ⟨b, hb⟩
      refine ⟨s.take i, b, ?_, by simp [hi]⟩
      rw [List.append_assoc, hb, List.take_append_drop]
    · rintro ⟨a, b, rfl, rfl⟩
      rw [List.append_assoc, List.drop_left]
      exact List.prefix_append _ _
  have fwd1 : ∀ k, findLastString (some s) (some p) = some k →
      (∃ a b, s = a ++ p ++ b ∧ a.length = k) ∧ ∀ a b, s = a ++ p ++ b → a.length ≤ k := by
    intro k h
    unfold findLastString at h
    simp only at h
    split at h
    · rename_i hle
      obtain ⟨h1, h2, h3⟩ := findLastLoop_some hp h
      refine ⟨(occ k (by omega)).1 h2, ?_⟩
      intro a b he
      have hlen := congrArg List.length he
      simp at hlen
      by_contra hc
      exact h3 a.length (by omega) (by omega) ((occ _ (by omega)).2 ⟨a, b, he, rfl⟩)
    · cases h
  have fwd2 : findLastString (some s) (some p) = none → ¬ p <:+: s := by
    intro h
    unfold findLastString at h
    simp only at h
    rintro ⟨a, b, he⟩
    have hlen := congrArg List.length he
    simp at hlen
    split at h
    · exact findLastLoop_none hp h a.length (by omega) ((occ _ (by omega)).2 ⟨a, b, he.symm, rfl⟩)
    · omega
  refine ⟨fun k => ⟨fwd1 k, ?_⟩, fwd2, ?_⟩
  · rintro ⟨⟨a, b, he, hk⟩, hmax⟩
    match hf : findLastString (some s) (some p) with
    | none => exact absurd ⟨a, b, he.symm⟩ (fwd2 hf)
    | some j =>
      obtain ⟨⟨a', b', he', hj⟩, hmax'⟩ := fwd1 j hf
      have h1 := hmax _ _ he'
      have h2 := hmax' _ _ he
      congr 1; omega
  · intro hn
    match hf : findLastString (some s) (some p) with
    | none => rfl
    | some j =>
      obtain ⟨⟨a', b', he', _⟩, _⟩ := fwd1 j hf
      exact absurd ⟨a', b', he'.symm⟩ hn

example : findLastString (some (c!"abcabc")) (some (c!"bc")) = some 4 ∧ findLastString (some (c!"abc")) (some []) = some 3 := by decide
example : stringEndsWith (some (c!"file.txt")) (some (c!".txt")) = true := by decide

/-! ### Counting, removing, replacing and appending -/

-- models: vital/kwiversys/SystemTools.cxx:1640-1657 (CountChar)
def countLoop (c : Char) : Nat → Str → Nat
  | n, [] => n
  | n, a :: s => countLoop c (if a = c then n + 1 else n) s
def countChar (str : Option Str) (c : Char) : Nat :=
  match str with
  | none => 0
  | some s => countLoop c 0 s

-- models: vital/kwiversys/SystemTools.cxx:1670-1678 (the inner loop of RemoveChars: is the end of `toremove` reached)
def notIn (a : Char) : Str → Bool
  | [] => true
  | d :: l => if a = d then false else notIn a l

-- models: vital/kwiversys/SystemTools.cxx:1660-1685 (RemoveChars)
def removeChars (str : Option Str) (toremove : Str) : Option Str :=
  str.map fun s => s.filter (notIn · toremove)

-- models: vital/kwiversys/SystemTools.cxx:1688-1707 (RemoveCharsButUpperHex)
def removeCharsButUpperHex (str : Option Str) : Option Str :=
  str.map fun s => s.filter fun c => ('0' ≤ c && c ≤ '9') || ('A' ≤ c && c ≤ 'F')

-- models: vital/kwiversys/SystemTools.cxx:1717-1725 (the inner loop of ReplaceChars on the character *ptr)
def replaceInner (r : Char) : Char → Str → Char
  | a, [] => a
  | a, d :: l => replaceInner r (if a = d then r else a) l

-- models: vital/kwiversys/SystemTools.cxx:1710-1730 (ReplaceChars)
def replaceChars (str : Option Str) (toreplace : Str) (r : Char) : Option Str := str.map fun s => s.map fun c => replaceInner r c toreplace

-- models: vital/kwiversys/SystemTools.cxx:1566-1584 (AppendStrings for two; DuplicateString of a null pointer is a null pointer)
def appendStrings (a b : Option Str) : Option Str :=
  match a, b with
  | none, b => b
  | some a, none => some a
  | some a, some b => some (a ++ b)

-- models: vital/kwiversys/SystemTools.cxx:1586-1613 (AppendStrings for three)
def appendStrings3 (a b c : Option Str) : Option Str :=
  match a, b, c with
  | none, b, c => appendStrings b c
  | some a, none, c => appendStrings (some a) c
  | some a, some b, none => appendStrings (some a) (some b)
  | some a, some b, some c => some (a ++ b ++ c)

theorem countLoop_eq (c : Char) : ∀ (s : Str) (n : Nat), countLoop c n s = n + s.count c
  | [], n => by simp [countLoop]
  | a :: s, n => by
    unfold countLoop
    rw [countLoop_eq c s]
    by_cases h : a = c
    · simp [h]; omega
    · simp [h]

theorem notIn_iff {a : Char} : ∀ {l : Str}, notIn a l = true ↔ a ∉ l
  | [] => by simp [notIn]
  | d :: l => by
    unfold notIn
    split
    · rename_i h; simp [h]
    · rename_i h; simp [h, notIn_iff (l := l)]

theorem replaceInner_eq (r : Char) : ∀ (l : Str) (a : Char), replaceInner r a l = if a ∈ l then r else a
  | [], a => by simp [replaceInner]
  | d :: l, a => by
    unfold replaceInner
    rw [replaceInner_eq r l]
    by_cases h : a = d
    · simp [h]
    · simp [h]

/-- C170. CountChar counts the positions holding the character. -/
theorem C170_count (s : Str) (c : Char) : countChar (some s) c = (s.filter (fun a => a = c)).length ∧ countChar none c = 0 := by
  refine ⟨?_, rfl⟩
  show countLoop c 0 s = _
  rw [countLoop_eq, Nat.zero_add, List.count_eq_countP, List.countP_eq_length_filter]
  congr 1

/-- C170. RemoveChars gives the text without the characters to be removed, the others in order; RemoveCharsButUpperHex keeps the digits and `A` to `F`. -/
theorem C170_remove (s : Str) (l : Str) :
    (∃ t, removeChars (some s) l = some t ∧ t.Sublist s ∧ (∀ c ∈ l, c ∉ t) ∧ ∀ c, c ∉ l → t.count c = s.count c) ∧
    (∃ t, removeCharsButUpperHex (some s) = some t ∧ t.Sublist s ∧ (∀ c ∈ t, c ∈ c!"0123456789ABCDEF") ∧
      ∀ c ∈ c!"0123456789ABCDEF", t.count c = s.count c) := by
  have hcount : ∀ (p : Char → Bool) (c : Char), p c = true → (s.filter p).count c = s.count c := by
    intro p c hc; exact List.count_filter hc
  refine ⟨⟨_, rfl, List.filter_sublist, ?_, ?_⟩, ⟨_, rfl, List.filter_sublist, ?_, ?_⟩⟩
  · intro c hc hm
    exact notIn_iff.1 (List.mem_filter.1 hm).2 hc
  · intro c hc
    exact hcount _ _ (notIn_iff.2 hc)
  · intro c hm
    have h := (List.mem_filter.1 hm).2
    revert h
    refine ascii_cases (P := fun c => (('0' ≤ c && c ≤ '9') || ('A' ≤ c && c ≤ 'F')) = true → c ∈ c!"0123456789ABCDEF") (by decide +kernel) ?_ c
    intro c hc h
    simp only [Bool.or_eq_true, Bool.and_eq_true, decide_eq_true_eq] at h
    rcases h with h | h
    · have : c.toNat ≤ 57 := h.2; omega
    · have : c.toNat ≤ 70 := h.2; omega
  · intro c hc
    apply hcount
    revert c; decide

/-- C170. ReplaceChars puts the replacement in place of just the characters to be replaced. -/
theorem C170_replace (s l : Str) (r : Char) :
    replaceChars (some s) l r = some (s.map fun c => if c ∈ l then r else c) ∧ replaceChars none l r = none := by
  refine ⟨?_, rfl⟩
  show some _ = _
  congr 1
  apply List.map_congr_left
  intro c _
  exact replaceInner_eq r l c

/-- C170. AppendStrings puts the texts one behind the other; a null pointer counts as empty, and only null pointers give a null pointer. -/
theorem C170_append (a b c : Option Str) :
    appendStrings a b = (if a = none ∧ b = none then none else some (a.getD [] ++ b.getD [])) ∧
      appendStrings3 a b c = (if a = none ∧ b = none ∧ c = none then none else some (a.getD [] ++ b.getD [] ++ c.getD [])) := by
  cases a <;> cases b <;> cases c <;> simp [appendStrings, appendStrings3]

example : removeChars (some (c!"a-b-c")) (c!"-a") = some (c!"bc") ∧ countChar (some (c!"banana")) 'a' = 3 := by decide

/-! ### MakeCidentifier -/

def permitted : Str := c!"_abcdefghijklmnopqrstuvwxyzABCDEFGHIJKLMNOPQRSTUVWXYZ0123456789"

-- models: vital/kwiversys/SystemTools.cxx:4623-4641 (MakeCidentifier; the loop puts `_` at each position of a character that is not permitted)
def makeCidentifier (s : Str) : Str :=
  let str := match s with
    | c :: r => if c ∈ c!"0123456789" then '_' :: c :: r else c :: r
    | [] => []
  str.map fun c => if c ∈ permitted then c else '_'

/-- Specification: the form of an identifier of C. -/
def IsIdent (s : Str) : Prop :=
  ∃ c r, s = c :: r ∧ (isAlpha c = true ∨ c = '_') ∧ ∀ d ∈ r, isAlpha d = true ∨ isDigit d = true ∨ d = '_'

theorem permitted_iff (c : Char) : c ∈ permitted ↔ (isAlpha c = true ∨ isDigit c = true ∨ c = '_') := by
  refine ascii_cases (P := fun c => c ∈ permitted ↔ (isAlpha c = true ∨ isDigit c = true ∨ c = '_')) (by decide +kernel) ?_ c
  intro c hc
  obtain ⟨_, _, h3, h4⟩ := big_toLower hc
  constructor
  · intro hm
    exfalso
    have : ∀ d ∈ permitted, d.toNat < 128 := by decide +kernel
    have := this c hm
    omega
  · rintro (h | h | h)
    · simp [isAlpha, h3, h4] at h
    · simp only [isDigit, Bool.and_eq_true, decide_eq_true_eq] at h
      have : c.toNat ≤ 57 := h.2
      omega
    · subst h; exact absurd hc (by decide)

/-- C171. From any text but the empty one MakeCidentifier makes something that has the form of an identifier; an identifier stays as it is; the result is as
long as the text, or one longer if the text begins with a digit, and agrees with it wherever that has a letter, digit or `_`. -/
theorem C171_identifier (s : Str) (hs : s ≠ []) :
    IsIdent (makeCidentifier s) ∧ (IsIdent s → makeCidentifier s = s) ∧
      (∀ c, s.head? = some c → (makeCidentifier s).length = s.length + if isDigit c then 1 else 0) ∧
      (∀ i c, s[i]? = some c → isAlpha c = true ∨ isDigit c = true ∨ c = '_' →
        (makeCidentifier s)[i + ((makeCidentifier s).length - s.length)]? = some c) := by
  match s, hs with
  | a :: r, _ =>
    have hdig : a ∈ c!"0123456789" ↔ isDigit a = true := by
      refine ascii_cases (P := fun a => a ∈ c!"0123456789" ↔ isDigit a = true) (by decide +kernel) ?_ a
      intro c hc
      have h57 : ¬ c ≤ '9' := by intro h; have : c.toNat ≤ 57 := h; omega
      have : ∀ d ∈ c!"0123456789", d.toNat < 128 := by decide
      constructor
      · intro hm; have := this c hm; omega
      · intro h; simp [isDigit, h57] at h
    have hnot : isDigit a = true → isAlpha a = false ∧ a ≠ '_' := by
      refine ascii_cases (P := fun a => isDigit a = true → isAlpha a = false ∧ a ≠ '_') (by decide +kernel) ?_ a
      intro c hc h
      have h57 : ¬ c ≤ '9' := by intro h; have : c.toNat ≤ 57 := h; omega
      simp [isDigit, h57] at h
    have hf : ∀ d : Char, (isAlpha (if d ∈ permitted then d else '_') = true ∨ isDigit (if d ∈ permitted then d else '_') = true ∨
        (if d ∈ permitted then d else '_') = '_') := by
      intro d
      split
      · rename_i h; exact (permitted_iff d).1 h
      · exact .inr (.inr rfl)
    by_cases hd : a ∈ c!"0123456789"
    · have e : makeCidentifier (a :: r) = '_' :: ((a :: r).map fun c => if c ∈ permitted then c else '_') := by
        unfold makeCidentifier
        simp only [hd, if_true, List.map_cons]
        rw [if_pos (by decide)]
      have hda := hdig.1 hd
      rw [e]
      refine ⟨⟨'_', _, rfl, .inr rfl, ?_⟩, ?_, ?_, ?_⟩
      · intro d hm
        rw [List.mem_map] at hm
        obtain ⟨x, _, rfl⟩ := hm
        exact hf x
      · rintro ⟨c, r', h1, h2, _⟩
        cases h1
        obtain ⟨h3, h4⟩ := hnot hda
        rcases h2 with h2 | h2
        · rw [h3] at h2; cases h2
        · exact absurd h2 h4
      · intro c hc
        cases hc
        simp [hda]
      · intro i c hi hc
        have hl : ('_' :: ((a :: r).map fun c => if c ∈ permitted then c else '_')).length - (a :: r).length = 1 := by simp
        rw [hl, List.getElem?_cons_succ, List.getElem?_map, hi, Option.map_some, if_pos ((permitted_iff c).2 hc)]
    · have e : makeCidentifier (a :: r) = ((a :: r).map fun c => if c ∈ permitted then c else '_') := by
        unfold makeCidentifier
        simp only [hd, if_false]
      have hda : isDigit a = false := by
        cases h : isDigit a
        · rfl
        · exact absurd (hdig.2 h) hd
      rw [e]
      refine ⟨⟨_, _, rfl, ?_, ?_⟩, ?_, ?_, ?_⟩
      · beta_reduce
        by_cases hp : a ∈ permitted
        · rw [if_pos hp]
          rcases (permitted_iff a).1 hp with h | h | h
          · exact .inl h
          · rw [hda] at h; cases h
          · exact .inr h
        · rw [if_neg hp]; exact .inr rfl
      · intro d hm
        rw [List.mem_map] at hm
        obtain ⟨x, _, rfl⟩ := hm
        exact hf x
      · rintro ⟨c, r', h1, h2, h3⟩
        cases h1
        conv_rhs => rw [← List.map_id (a :: r)]
        apply List.map_congr_left
        intro x hx
        have : x ∈ permitted := by
          rw [permitted_iff]
          rcases List.mem_cons.1 hx with rfl | hx
          · rcases h2 with h | h
            · exact .inl h
            · exact .inr (.inr h)
          · exact h3 x hx
        simp [this]
      · intro c hc
        cases hc
        simp [hda]
      · intro i c hi hc
        simp only [List.length_map, Nat.sub_self, Nat.add_zero]
        rw [List.getElem?_map, hi, Option.map_some, if_pos ((permitted_iff c).2 hc)]

example : makeCidentifier (c!"3d-view.h") = c!"_3d_view_h" := by decide
example : IsIdent (c!"_a1") := ⟨'_', c!"a1", rfl, .inr rfl, by decide⟩

/-! ### Strucmp -/

-- models: vital/kwiversys/SystemTools.cxx:2591-2603 (Strucmp; characters below 128, where char and unsigned char agree)
def strucmp : Str → Str → Int
  | [], t => (0 : Int) - ((toLower (t.headD '\x00')).toNat : Int)
  | a :: s, [] => ((toLower a).toNat : Int) - 0
  | a :: s, b :: t => if toLower a = toLower b then strucmp s t else ((toLower a).toNat : Int) - ((toLower b).toNat : Int)

theorem toLower_ne_nul {c : Char} (h : c ≠ '\x00') : 0 < (toLower c).toNat := by
  revert h
  refine ascii_cases (P := fun c => c ≠ '\x00' → 0 < (toLower c).toNat) (by decide +kernel) ?_ c
  intro c hc _
  rw [(big_toLower hc).1]; omega

/-- Specification: lexicographic order of the texts in lower case. -/
inductive Before : Str → Str → Prop
  | nil (b : Char) (t : Str) : Before [] (b :: t)
  | head {a b : Char} {s t : Str} : (toLower a).toNat < (toLower b).toNat → Before (a :: s) (b :: t)
  | tail {a b : Char} {s t : Str} : toLower a = toLower b → Before s t → Before (a :: s) (b :: t)

theorem charToNat_inj {a b : Char} (h : a.toNat = b.toNat) : a = b := by
  rw [← Char.ofNat_toNat a, ← Char.ofNat_toNat b, h]

theorem before_trans {s t : Str} (h : Before s t) : ∀ {u}, Before t u → Before s u := by
  induction h with
  | nil b t => intro u hu; cases hu <;> exact .nil _ _
  | head h1 =>
    intro u hu
    cases hu with
    | head h2 => exact .head (Nat.lt_trans h1 h2)
    | tail h2 _ => exact .head (h2 ▸ h1)
  | tail h1 _ ih =>
    intro u hu
    cases hu with
    | head h2 => exact .head (h1 ▸ h2)
    | tail h2 h3 => exact .tail (h1.trans h2) (ih h3)

theorem before_irrefl : ∀ {s t : Str}, SameButCase s t → ¬ Before s t := by
  intro s t hs hb
  rw [sameButCase_iff] at hs
  induction hb with
  | nil => simp at hs
  | head h => simp at hs; rw [hs.1] at h; omega
  | tail _ _ ih => simp at hs; exact ih (by simpa using hs.2)

/-- C172. For texts without NUL, Strucmp is 0 just for texts that agree up to case, negative just when the first comes before the second, and positive
just when it comes after it. -/
theorem C172_strucmp (s t : Str) (hs : '\x00' ∉ s) (ht : '\x00' ∉ t) :
    (strucmp s t = 0 ↔ SameButCase s t) ∧ (strucmp s t < 0 ↔ Before s t) ∧ (0 < strucmp s t ↔ Before t s) := by
  rw [sameButCase_iff]
  induction s generalizing t with
  | nil =>
    cases t with
    | nil =>
      refine ⟨by simp [strucmp]; decide, ?_, ?_⟩
      · constructor
        · intro h; exact absurd h (by decide)
        · intro h; cases h
      · constructor
        · intro h; exact absurd h (by decide)
        · intro h; cases h
    | cons b t =>
      have hb : 0 < (toLower b).toNat := toLower_ne_nul (fun h => ht (by simp [h]))
      have e : strucmp [] (b :: t) = 0 - ((toLower b).toNat : Int) := rfl
      rw [e]
      refine ⟨?_, ?_, ?_⟩
      · constructor
        · intro h; omega
        · intro h; simp at h
      · constructor
        · intro _; exact .nil _ _
        · intro _; omega
      · constructor
        · intro h; omega
        · intro h; cases h
  | cons a s ih =>
    have ha : 0 < (toLower a).toNat := toLower_ne_nul (fun h => hs (by simp [h]))
    cases t with
    | nil =>
      have e : strucmp (a :: s) [] = ((toLower a).toNat : Int) - 0 := rfl
      rw [e]
      refine ⟨?_, ?_, ?_⟩
      · constructor
        · intro h; omega
        · intro h; simp at h
      · constructor
        · intro h; omega
        · intro h; cases h
      · constructor
        · intro _; exact .nil _ _
        · intro _; omega
    | cons b t =>
      have ih := ih t (fun h => hs (List.mem_cons_of_mem _ h)) (fun h => ht (List.mem_cons_of_mem _ h))
      unfold strucmp
      by_cases h : toLower a = toLower b
      · rw [if_pos h]
        refine ⟨?_, ?_, ?_⟩
        · rw [ih.1]; simp [h]
        · rw [ih.2.1]
          constructor
          · exact .tail h
          · intro hb
            cases hb with
            | head h2 => rw [h] at h2; omega
            | tail _ h2 => exact h2
        · rw [ih.2.2]
          constructor
          · exact .tail h.symm
          · intro hb
            cases hb with
            | head h2 => rw [h] at h2; omega
            | tail _ h2 => exact h2
      · rw [if_neg h]
        have hne : (toLower a).toNat ≠ (toLower b).toNat := fun e => h (charToNat_inj e)
        refine ⟨?_, ?_, ?_⟩
        · constructor
          · intro h2; omega
          · intro h2; simp at h2; exact absurd h2.1 h
        · constructor
          · intro h2; exact .head (by omega)
          · intro hb
            cases hb with
            | head h2 => omega
            | tail h2 _ => exact absurd h2 h
        · constructor
          · intro h2; exact .head (by omega)
          · intro hb
            cases hb with
            | head h2 => omega
            | tail h2 _ => exact absurd h2.symm h

/-- C172. So it orders texts: transitive, and no text comes before one it agrees with. -/
theorem C172_order (s t u : Str) (hs : '\x00' ∉ s) (ht : '\x00' ∉ t) (hu : '\x00' ∉ u) :
    (strucmp s t < 0 → strucmp t u < 0 → strucmp s u < 0) ∧ (strucmp s t < 0 → 0 < strucmp t s) := by
  refine ⟨?_, ?_⟩
  · rw [(C172_strucmp s t hs ht).2.1, (C172_strucmp t u ht hu).2.1, (C172_strucmp s u hs hu).2.1]
    exact fun h1 h2 => before_trans h1 h2
  · rw [(C172_strucmp s t hs ht).2.1, (C172_strucmp t s ht hs).2.2]
    exact id

example : strucmp (c!"Makefile") (c!"makeFILE") = 0 ∧ strucmp (c!"abc") (c!"ABD") < 0 := by decide

end Vital.Strs
