import Verif.Sys.Paths
import Mathlib.Data.List.Basic
import Mathlib.Data.List.Infix
/-
  Model of the string functions of vital/kwiversys/SystemTools.cxx; properties C164 (ReplaceString), C165 (case conversion), C166 (SplitString),
  C167 (CropString), C168 (EscapeChars), C169 (prefixes, suffixes and last occurrences), C170 (CountChar, RemoveChars, ReplaceChars, AppendStrings) and
  C171 (MakeCidentifier).

  A `const char*` is `none` (NULL) or a text without NUL; a std::string may hold NUL characters, and what its c_str() shows to the C functions is `cstr`.
  toupper, tolower, isalpha, isspace are those of the "C" locale.
-/
namespace Vital.Strs
open Vital

/-- what a C function sees of a std::string -/
def cstr (s : Str) : Str := s.takeWhile (· != '\x00')

def isUpper (c : Char) : Bool := 'A' ≤ c && c ≤ 'Z'
def isLower (c : Char) : Bool := 'a' ≤ c && c ≤ 'z'
def isAlpha (c : Char) : Bool := isUpper c || isLower c
def isDigit (c : Char) : Bool := '0' ≤ c && c ≤ '9'

/-! ### ReplaceString -/

/-- `strstr`: the position of the first occurrence. -/
def strstr (r : Str) : Str → Option Nat
  | [] => if r = [] then some 0 else none
  | c :: s => if r.isPrefixOf (c :: s) then some 0 else (strstr r s).map (· + 1)

-- models: vital/kwiversys/SystemTools.cxx:820-834 (the loop; `text` is what currentPos points to; `none`: currentPos moves behind the copy of the text)
def replaceLoop (r : Str) (rsize : Nat) (w : Str) : Nat → Str → Option Str
  | 0, _ => none
  | n + 1, text =>
    match strstr r text with
    | none => some text
    | some k =>
      if text.length < k + rsize then none
      else (replaceLoop r rsize w n (text.drop (k + rsize))).map (fun out => text.take k ++ w ++ out)

-- models: vital/kwiversys/SystemTools.cxx:802-836 (ReplaceString( source, const char*, size, with ))
def replaceCore (source r : Str) (rsize : Nat) (w : Str) : Option Str :=
  match strstr r (cstr source) with
  | none => some source
  | some _ => replaceLoop r rsize w ((cstr source).length + 1) (cstr source)

-- models: vital/kwiversys/SystemTools.cxx:776-787 (ReplaceString for std::string)
def replaceString (source replace w : Str) : Option Str :=
  if replace = [] then some source else replaceCore source (cstr replace) replace.length w

-- models: vital/kwiversys/SystemTools.cxx:789-800 (ReplaceString for const char*)
def replaceCString (source replace : Str) (w : Option Str) : Option Str :=
  if replace = [] then some source else replaceCore source replace replace.length (w.getD [])

/-- Specification: the occurrences of `r`, taken from the left without overlap, become `w`. -/
inductive Replaced (r w : Str) : Str → Str → Prop
  | none {s : Str} : ¬ r <:+: s → Replaced r w s s
  | some {a b out : Str} : (∀ a' b', a ++ r ++ b = a' ++ r ++ b' → a.length ≤ a'.length) → Replaced r w b out →
      Replaced r w (a ++ r ++ b) (a ++ w ++ out)

theorem strstr_none {r : Str} : ∀ {s : Str}, strstr r s = none → ¬ r <:+: s
  | [], h => by
    unfold strstr at h
    split at h
    · cases h
    · rename_i hr
      intro hi; exact hr (List.infix_nil.1 hi)
  | c :: s, h => by
    unfold strstr at h
    split at h
    · cases h
    · rename_i hp
      have ih := strstr_none (r := r) (s := s) (by simpa using h)
      intro hi
      rcases List.infix_cons_iff.1 hi with h1 | h1
      · exact hp (List.isPrefixOf_iff_prefix.2 h1)
      · exact ih h1

theorem strstr_some {r : Str} : ∀ {s : Str} {k : Nat}, strstr r s = some k →
    (∃ a b, s = a ++ r ++ b ∧ a.length = k) ∧ (∀ a' b', s = a' ++ r ++ b' → k ≤ a'.length)
  | [], k, h => by
    unfold strstr at h
    split at h
    · rename_i hr
      cases h
      exact ⟨⟨[], [], by simp [hr]⟩, fun _ _ _ => Nat.zero_le _⟩
    · cases h
  | c :: s, k, h => by
    unfold strstr at h
    split at h
    · rename_i hp
      cases h
      obtain ⟨b, hb⟩ := List.isPrefixOf_iff_prefix.1 hp
      exact ⟨⟨[], b, by simp [hb]⟩, fun _ _ _ => Nat.zero_le _⟩
    · rename_i hp
      rw [Option.map_eq_some_iff] at h
      obtain ⟨j, hj, rfl⟩ := h
      obtain ⟨⟨a, b, hs, ha⟩, hmin⟩ := strstr_some hj
      refine ⟨⟨c :: a, b, by simp [hs], by simp [ha]⟩, ?_⟩
      intro a' b' he
      cases a' with
      | nil =>
        exfalso; apply hp
        exact List.isPrefixOf_iff_prefix.2 ⟨b', by simpa using he.symm⟩
      | cons x a' =>
        simp only [List.cons_append, List.cons.injEq] at he
        have := hmin a' b' (by simpa using he.2)
        simpa using this

theorem replaceLoop_spec {r w : Str} (hr : r ≠ []) : ∀ (n : Nat) (text : Str), text.length < n →
    ∃ out, replaceLoop r r.length w n text = some out ∧ Replaced r w text out
  | 0, _, h => absurd h (Nat.not_lt_zero _)
  | n + 1, text, h => by
    unfold replaceLoop
    match hk : strstr r text with
    | none => exact ⟨text, rfl, .none (strstr_none hk)⟩
    | some k =>
      obtain ⟨⟨a, b, hs, ha⟩, hmin⟩ := strstr_some hk
      have hrl : 0 < r.length := List.length_pos_iff.2 hr
      have hlen : text.length = k + r.length + b.length := by rw [hs]; simp [ha]; omega
      have hd : text.drop (k + r.length) = b := by
        rw [hs, ← ha, ← List.length_append, List.drop_left]
      have ht : text.take k = a := by
        rw [hs, List.append_assoc, ← ha, List.take_left]
      obtain ⟨out, h1, h2⟩ := replaceLoop_spec hr n b (by omega)
      refine ⟨a ++ w ++ out, ?_, ?_⟩
      · show (if text.length < k + r.length then none else _) = _
        rw [if_neg (by omega), hd, h1, ht]; rfl
      · subst hs
        exact .some (fun a' b' he => by rw [ha]; exact hmin a' b' he) h2

theorem cstr_eq {s : Str} (h : '\x00' ∉ s) : cstr s = s := by
  unfold cstr
  induction s with
  | nil => rfl
  | cons c s ih =>
    simp only [List.mem_cons, not_or] at h
    rw [List.takeWhile_cons_of_pos (by simpa using Ne.symm h.1), ih h.2]

/-- C164. Without NUL characters, ReplaceString replaces the occurrences from the left, without overlap, and changes nothing else. -/
theorem C164_replace (s r w : Str) (hr : r ≠ []) (hr0 : '\x00' ∉ r) (hs0 : '\x00' ∉ s) :
    ∃ out, replaceString s r w = some out ∧ replaceCString s r (some w) = some out ∧ Replaced r w s out := by
  have key : ∃ out, replaceCore s r r.length w = some out ∧ Replaced r w s out := by
    unfold replaceCore
    rw [cstr_eq hs0]
    match hk : strstr r s with
    | none => exact ⟨s, rfl, .none (strstr_none hk)⟩
    | some k =>
      exact replaceLoop_spec hr _ _ (Nat.lt_succ_self _)
  obtain ⟨out, h1, h2⟩ := key
  refine ⟨out, ?_, ?_, h2⟩
  · unfold replaceString; rw [if_neg hr, cstr_eq hr0]; exact h1
  · unfold replaceCString; rw [if_neg hr]; exact h1

/-- C164. The empty text is never replaced. -/
theorem C164_empty (s w : Str) (w' : Option Str) : replaceString s [] w = some s ∧ replaceCString s [] w' = some s := ⟨rfl, rfl⟩

/-- What the specification relation says is unique. -/
theorem Replaced.unique {r w : Str} (hr : r ≠ []) {s o1 : Str} (h1 : Replaced r w s o1) : ∀ {o2}, Replaced r w s o2 → o1 = o2 := by
  induction h1 with
  | none hn =>
    intro o2 h2
    cases h2 with
    | none => rfl
    | some => exact absurd ⟨_, _, rfl⟩ hn
  | @some a b out hmin _ ih =>
    intro o2 h2
    generalize hs : a ++ r ++ b = s at h2
    cases h2 with
    | none hn => exact absurd ⟨_, _, hs⟩ hn
    | @some a' b' out' hmin' hb =>
      have e1 := hmin _ _ hs
      have e2 := hmin' _ _ hs.symm
      have hl : a.length = a'.length := Nat.le_antisymm e1 e2
      rw [List.append_assoc, List.append_assoc] at hs
      obtain ⟨ha, hrb⟩ := List.append_inj hs hl
      obtain ⟨_, hb'⟩ := List.append_inj hrb rfl
      subst ha; subst hb'
      rw [ih hb]

/-- C164. Replacing a text by itself changes nothing. -/
theorem C164_self (s r : Str) (hr0 : '\x00' ∉ r) (hs0 : '\x00' ∉ s) : replaceString s r r = some s := by
  by_cases hr : r = []
  · subst hr; rfl
  · obtain ⟨out, h1, _, h2⟩ := C164_replace s r r hr hr0 hs0
    have : ∀ {s out : Str}, Replaced r r s out → out = s := by
      intro s out h
      induction h with
      | none => rfl
      | some _ _ ih => rw [ih]
    rw [h1, this h2]

/-- C164. A character that is replaced by a text without it is gone. -/
theorem C164_gone (s w : Str) (c : Char) (hc : c ≠ '\x00') (hs0 : '\x00' ∉ s) (hw : c ∉ w) :
    ∃ out, replaceString s [c] w = some out ∧ c ∉ out := by
  obtain ⟨out, h1, _, h2⟩ := C164_replace s [c] w (by simp) (by simpa using Ne.symm hc) hs0
  refine ⟨out, h1, ?_⟩
  have : ∀ {s out : Str}, Replaced [c] w s out → c ∉ out := by
    intro s out h
    induction h with
    | none hn =>
      intro hm
      obtain ⟨a, b, rfl⟩ := List.append_of_mem hm
      exact hn ⟨a, b, by simp⟩
    | @some a b out hmin _ ih =>
      have ha : c ∉ a := by
        intro hm
        obtain ⟨x, y, rfl⟩ := List.append_of_mem hm
        have := hmin x (y ++ [c] ++ b) (by simp)
        simp at this; omega
      simp [ha, hw, ih]
  exact this h2

/-- C164, a NUL in the source: everything behind it is lost as soon as there is something to replace; otherwise the text stays. -/
theorem C164_nul_source (s r w : Str) (hr : r ≠ []) (hr0 : '\x00' ∉ r) :
    (¬ r <:+: cstr s ∧ replaceString s r w = some s) ∨
      (r <:+: cstr s ∧ replaceString s r w = replaceString (cstr s) r w) := by
  have h0 : '\x00' ∉ cstr s := by
    intro hm
    unfold cstr at hm
    have := List.all_takeWhile (p := (· != '\x00')) (l := s)
    rw [List.all_eq_true] at this
    simpa using this _ hm
  unfold replaceString
  rw [if_neg hr, cstr_eq hr0]
  unfold replaceCore
  rw [cstr_eq h0]
  match hk : strstr r (cstr s) with
  | none => rw [if_neg hr]; exact .inl ⟨strstr_none hk, rfl⟩
  | some k =>
    rw [if_neg hr]
    refine .inr ⟨?_, rfl⟩
    obtain ⟨⟨a, b, hs, _⟩, _⟩ := strstr_some hk
    exact ⟨a, b, hs.symm⟩

/-- C164 refuted for texts with NUL: a search text with a NUL leads behind the end of the copied text, and a source with one is cut there. -/
theorem C164_nul_refuted :
    replaceString (c!"xa") ['a', '\x00', 'b'] (c!"y") = none ∧
    replaceString (c!"xa") ['\x00'] (c!"y") = none ∧
    replaceString ['a', '\x00', 'b'] (c!"a") (c!"y") = some (c!"y") := by decide

theorem strstr_double : ∀ (s : Str), Option.isSome (strstr (c!"//") s) = Sys.adjacentSlashes s
  | [] => rfl
  | [c] => by
    by_cases h : c = '/' <;> simp [strstr, Sys.adjacentSlashes, List.isPrefixOf]
  | c :: d :: s => by
    have ih := strstr_double (d :: s)
    unfold strstr Sys.adjacentSlashes
    by_cases h : c = '/' ∧ d = '/'
    · obtain ⟨rfl, rfl⟩ := h; simp
    · have hp : List.isPrefixOf ['/', '/'] (c :: d :: s) = false := by
        simp only [List.isPrefixOf, Bool.and_true, Bool.and_eq_false_iff, beq_eq_false_iff_ne]
        rcases not_and_or.1 h with h | h
        · exact .inl (Ne.symm h)
        · exact .inr (Ne.symm h)
      rw [hp]
      simp only [Bool.false_eq_true, ↓reduceIte, Option.isSome_map]
      rw [ih]
      split
      · rename_i heq; cases heq; exact absurd ⟨rfl, rfl⟩ h
      · rename_i heq; cases heq; rfl
      · rename_i heq; cases heq

/-- C164: "one text ends in `//`": what ConvertToUnixSlashes gets from `ReplaceString( path, "//", "/" )` is the function `replaceDouble` of the path model. -/
theorem replaceDouble_spec : ∀ (s : Str), Replaced (c!"//") (c!"/") s (Sys.replaceDouble s) := by
  intro s
  -- strong induction on the length
  have : ∀ n (s : Str), s.length < n → Replaced (c!"//") (c!"/") s (Sys.replaceDouble s) := by
    intro n
    induction n with
    | zero => intro s h; exact absurd h (Nat.not_lt_zero _)
    | succ n ih =>
      intro s hl
      match hk : strstr (c!"//") s with
      | none =>
        have hn := strstr_none hk
        have : ∀ {s : Str}, ¬ (c!"//") <:+: s → Sys.replaceDouble s = s := by
          intro s
          induction s with
          | nil => intro _; rfl
          | cons c s ih =>
            intro hn
            have hn' : ¬ (c!"//") <:+: s := fun h => hn (List.infix_cons_iff.2 (.inr h))
            unfold Sys.replaceDouble
            split
            · rename_i heq
              cases heq
              exact absurd ⟨[], _, rfl⟩ hn
            · rename_i heq; cases heq; rw [ih hn']
            · rename_i heq; cases heq
        rw [this hn]; exact .none hn
      | some k =>
        obtain ⟨⟨a, b, hs, ha⟩, hmin⟩ := strstr_some hk
        subst hs
        have ihb := ih b (by simp at hl; omega)
        have key : ∀ (a : Str), (∀ a' b', a ++ (c!"//") ++ b = a' ++ (c!"//") ++ b' → a.length ≤ a'.length) →
            Sys.replaceDouble (a ++ (c!"//") ++ b) = a ++ (c!"/") ++ Sys.replaceDouble b := by
          intro a
          induction a with
          | nil => intro _; rfl
          | cons c a iha =>
            intro hm
            have hm' : ∀ a' b', a ++ (c!"//") ++ b = a' ++ (c!"//") ++ b' → a.length ≤ a'.length := by
              intro a' b' he
              have := hm (c :: a') b' (by simp only [List.cons_append]; rw [he])
              simpa using this
            have := iha hm'
            simp only [List.cons_append]
            conv_lhs => unfold Sys.replaceDouble
            split
            · rename_i heq
              exfalso
              have := hm [] _ (by simp only [List.cons_append, List.nil_append]; exact heq)
              simp at this
            · rename_i heq
              cases heq
              rw [this]
            · rename_i heq; cases heq
        rw [key a (fun a' b' he => by rw [ha]; exact hmin a' b' he)]
        exact .some (fun a' b' he => by rw [ha]; exact hmin a' b' he) ihb
  exact this (s.length + 1) s (Nat.lt_succ_self _)

/-- C164. The path model's treatment of `//` is what this function does. -/
theorem C164_double_slash (s : Str) (hs0 : '\x00' ∉ s) : replaceString s (c!"//") (c!"/") = some (Sys.replaceDouble s) := by
  obtain ⟨out, h1, _, h2⟩ := C164_replace s (c!"//") (c!"/") (by simp) (by simp) hs0
  rw [h1, h2.unique (by simp) (replaceDouble_spec s)]

example : replaceString (c!"a//b///c") (c!"//") (c!"+") = some (c!"a+b+/c") := by decide
example : replaceString (c!"aaaa") (c!"aa") (c!"a") = some (c!"aa") := by decide

end Vital.Strs
