import Verif.Sys.Strings
import Mathlib.Tactic.IntervalCases
/-
  Properties C165 (case conversion), C166 (SplitString), C167 (CropString), C168 (EscapeChars) of the string functions of
  vital/kwiversys/SystemTools.cxx; see Strings.lean.
-/
namespace Vital.Strs
open Vital

/-! ### Characters -/

theorem ascii_cases {P : Char → Prop} (h : ∀ n, n < 128 → P (Char.ofNat n)) (hb : ∀ c : Char, 128 ≤ c.toNat → P c) (c : Char) : P c := by
  by_cases hc : c.toNat < 128
  · have := h _ hc; rwa [Char.ofNat_toNat] at this
  · exact hb c (Nat.le_of_not_lt hc)

theorem big_toLower {c : Char} (h : 128 ≤ c.toNat) : toLower c = c ∧ toUpper c = c ∧ isUpper c = false ∧ isLower c = false := by
  have h1 : ¬ c ≤ 'Z' := by
    intro hle; have : c.toNat ≤ 90 := hle; omega
  have h2 : ¬ c ≤ 'z' := by
    intro hle; have : c.toNat ≤ 122 := hle; omega
  simp [toLower, toUpper, isUpper, isLower, h1, h2]

theorem case_facts (c : Char) :
    isUpper (toLower c) = false ∧ isLower (toUpper c) = false ∧ toLower (toLower c) = toLower c ∧ toLower (toUpper c) = toLower c ∧
      toUpper (toUpper c) = toUpper c ∧ toUpper (toLower c) = toUpper c ∧ (isLower c = false → isUpper c = false → toLower c = c ∧ toUpper c = c) := by
  refine ascii_cases (P := fun c => isUpper (toLower c) = false ∧ isLower (toUpper c) = false ∧ toLower (toLower c) = toLower c ∧
    toLower (toUpper c) = toLower c ∧ toUpper (toUpper c) = toUpper c ∧ toUpper (toLower c) = toUpper c ∧
    (isLower c = false → isUpper c = false → toLower c = c ∧ toUpper c = c)) (by decide +kernel) ?_ c
  intro c hc
  obtain ⟨h1, h2, h3, h4⟩ := big_toLower hc
  simp [h1, h2, h3, h4]

theorem isUpper_not_space (c : Char) : isUpper c = true → isSpace c = false := by
  refine ascii_cases (P := fun c => isUpper c = true → isSpace c = false) (by decide +kernel) ?_ c
  intro c hc h
  rw [(big_toLower hc).2.2.1] at h; cases h

/-! ### Case conversion -/

-- models: vital/kwiversys/SystemTools.cxx:1616-1625 (LowerCase)
def lowerCase (s : Str) : Str := s.map toLower

-- models: vital/kwiversys/SystemTools.cxx:1628-1637 (UpperCase)
def upperCase (s : Str) : Str := s.map toUpper

-- models: vital/kwiversys/SystemTools.cxx:1487-1501 (Capitalized)
def capitalized : Str → Str
  | [] => []
  | c :: s => toUpper c :: s.map toLower

-- models: vital/kwiversys/SystemTools.cxx:1507-1523, 1529-1545 (the loops of CapitalizedWords and UnCapitalizedWords; `prev` is s[i - 1])
def wordsLoop (f : Char → Char) : Option Char → Str → Str
  | _, [] => []
  | prev, c :: s => (if isAlpha c && (match prev with | none => true | some p => isSpace p) then f c else c) :: wordsLoop f (some c) s

-- models: vital/kwiversys/SystemTools.cxx:1504-1523 (CapitalizedWords)
def capitalizedWords (s : Str) : Str := wordsLoop toUpper none s

-- models: vital/kwiversys/SystemTools.cxx:1526-1545 (UnCapitalizedWords)
def unCapitalizedWords (s : Str) : Str := wordsLoop toLower none s

-- models: vital/kwiversys/SystemTools.cxx:1555-1562 (the loop of AddSpaceBetweenCapitalizedWords)
def spaceLoop : Char → Str → Str
  | _, [] => []
  | prev, c :: s => if isUpper c && !isSpace prev && !isUpper prev then ' ' :: c :: spaceLoop c s else c :: spaceLoop c s

-- models: vital/kwiversys/SystemTools.cxx:1548-1564 (AddSpaceBetweenCapitalizedWords)
def addSpaceBetweenCapitalizedWords : Str → Str
  | [] => []
  | c :: s => c :: spaceLoop c s

/-- Two texts that differ at most in the case of letters. -/
def SameButCase (a b : Str) : Prop := a.length = b.length ∧ ∀ i : Nat, a[i]?.map toLower = b[i]?.map toLower

/-- Position `i` begins a word of `s`. -/
def WordStart (s : Str) (i : Nat) : Prop := i = 0 ∨ ∃ c, s[i - 1]? = some c ∧ isSpace c = true

theorem sameButCase_iff {a b : Str} : SameButCase a b ↔ a.map toLower = b.map toLower := by
  constructor
  · rintro ⟨_, h⟩
    apply List.ext_getElem?
    intro i; simpa using h i
  · intro h
    refine ⟨by simpa using congrArg List.length h, fun i => ?_⟩
    have := congrArg (·[i]?) h
    simpa using this

/-- C165. LowerCase and UpperCase change nothing but the case, and leave no letter of the other case. -/
theorem C165_lower_upper (s : Str) :
    SameButCase (lowerCase s) s ∧ SameButCase (upperCase s) s ∧ (∀ c ∈ lowerCase s, isUpper c = false) ∧ (∀ c ∈ upperCase s, isLower c = false) ∧
      (∀ t, SameButCase s t ↔ lowerCase s = lowerCase t) ∧ (∀ t, SameButCase s t ↔ upperCase s = upperCase t) := by
  refine ⟨?_, ?_, ?_, ?_, fun t => sameButCase_iff, fun t => ?_⟩
  · rw [sameButCase_iff]; simp [lowerCase, (case_facts _).2.2.1]
  · rw [sameButCase_iff]; simp [upperCase, (case_facts _).2.2.2.1]
  · simp only [lowerCase, List.mem_map]; rintro _ ⟨c, _, rfl⟩; exact (case_facts c).1
  · simp only [upperCase, List.mem_map]; rintro _ ⟨c, _, rfl⟩; exact (case_facts c).2.1
  · rw [sameButCase_iff]
    unfold upperCase
    constructor
    · intro h
      have := congrArg (List.map toUpper) h
      simpa [List.map_map, Function.comp_def, (case_facts _).2.2.2.2.2.1] using this
    · intro h
      have := congrArg (List.map toLower) h
      simpa [List.map_map, Function.comp_def, (case_facts _).2.2.2.1] using this

/-- C165. Capitalized gives the first character in upper case and the others in lower case. -/
theorem C165_capitalized (s : Str) :
    SameButCase (capitalized s) s ∧ (∀ c, (capitalized s).head? = some c → isLower c = false) ∧ (∀ c ∈ (capitalized s).tail, isUpper c = false) := by
  cases s with
  | nil => exact ⟨⟨rfl, fun _ => rfl⟩, by simp [capitalized], by simp [capitalized]⟩
  | cons a s =>
    refine ⟨?_, ?_, ?_⟩
    · rw [sameButCase_iff]; simp [capitalized, (case_facts _).2.2.1, (case_facts _).2.2.2.1]
    · intro c h
      simp only [capitalized, List.head?_cons, Option.some.injEq] at h
      rw [← h]; exact (case_facts a).2.1
    · simp only [capitalized, List.tail_cons, List.mem_map]; rintro _ ⟨c, _, rfl⟩; exact (case_facts c).1

theorem wordsLoop_get (f : Char → Char) (hf : ∀ c, isAlpha c = false → f c = c) : ∀ (s : Str) (prev : Option Char) (i : Nat),
    (wordsLoop f prev s)[i]? = s[i]?.map fun c =>
      if (i = 0 ∧ (match prev with | none => true | some p => isSpace p) = true) ∨ (i ≠ 0 ∧ ∃ d, s[i - 1]? = some d ∧ isSpace d = true) then f c else c
  | [], _, _ => by simp [wordsLoop]
  | a :: s, prev, 0 => by
    simp only [wordsLoop, List.getElem?_cons_zero, Option.map_some, Option.some.injEq, true_and, ne_eq, not_true_eq_false, false_and, or_false]
    cases hal : isAlpha a
    · rw [hf a hal]; simp
    · simp only [Bool.true_and]
  | a :: s, prev, i + 1 => by
    have := wordsLoop_get f hf s (some a) i
    simp only [wordsLoop, List.getElem?_cons_succ]
    rw [this]
    congr 1
    funext c
    congr 1
    simp only [Nat.add_eq_zero_iff, one_ne_zero, and_false, false_and, ne_eq, not_false_eq_true, true_and, false_or, Nat.add_sub_cancel, eq_iff_iff]
    cases i with
    | zero => simp
    | succ j => simp

/-- C165. CapitalizedWords puts the first character of every word in upper case, UnCapitalizedWords in lower case, and both leave every other one as it is. -/
theorem C165_words (s : Str) (i : Nat) :
    (WordStart s i → (capitalizedWords s)[i]? = s[i]?.map toUpper ∧ (unCapitalizedWords s)[i]? = s[i]?.map toLower) ∧
      (¬ WordStart s i → (capitalizedWords s)[i]? = s[i]? ∧ (unCapitalizedWords s)[i]? = s[i]?) := by
  have hu : ∀ c, isAlpha c = false → toUpper c = c := by
    intro c hc
    simp only [isAlpha, Bool.or_eq_false_iff] at hc
    exact ((case_facts c).2.2.2.2.2.2 hc.2 hc.1).2
  have hl : ∀ c, isAlpha c = false → toLower c = c := by
    intro c hc
    simp only [isAlpha, Bool.or_eq_false_iff] at hc
    exact ((case_facts c).2.2.2.2.2.2 hc.2 hc.1).1
  have e1 := wordsLoop_get toUpper hu s none i
  have e2 := wordsLoop_get toLower hl s none i
  have hiff : ((i = 0 ∧ true = true) ∨ (i ≠ 0 ∧ ∃ d, s[i - 1]? = some d ∧ isSpace d = true)) ↔ WordStart s i := by
    unfold WordStart
    by_cases h : i = 0 <;> simp [h]
  unfold capitalizedWords unCapitalizedWords
  rw [e1, e2]
  constructor
  · intro h
    have h' := hiff.2 h
    constructor
    · congr 1; funext c; exact if_pos h'
    · congr 1; funext c; exact if_pos h'
  · intro h
    have h' := fun x => h (hiff.1 x)
    constructor
    · conv_rhs => rw [← Option.map_id' (x := s[i]?)]
      congr 1; funext c; exact if_neg h'
    · conv_rhs => rw [← Option.map_id' (x := s[i]?)]
      congr 1; funext c; exact if_neg h'

/-- `c` following `p` begins a capitalized word that is not set off by a blank. -/
def Joint (p c : Char) : Prop := isUpper c = true ∧ isSpace p = false ∧ isUpper p = false

/-- Specification: the text with a blank put in at every joint, and only there. -/
inductive Spaced : Str → Str → Prop
  | nil : Spaced [] []
  | one (c : Char) : Spaced [c] [c]
  | joint {p c : Char} {s out : Str} : Joint p c → Spaced (c :: s) out → Spaced (p :: c :: s) (p :: ' ' :: out)
  | plain {p c : Char} {s out : Str} : ¬ Joint p c → Spaced (c :: s) out → Spaced (p :: c :: s) (p :: out)

theorem spaceLoop_spec : ∀ (s : Str) (p : Char), Spaced (p :: s) (p :: spaceLoop p s)
  | [], p => .one p
  | c :: s, p => by
    have ih := spaceLoop_spec s c
    unfold spaceLoop
    split
    · rename_i h
      simp only [Bool.and_eq_true, Bool.not_eq_true'] at h
      exact .joint ⟨h.1.1, h.1.2, h.2⟩ ih
    · rename_i h
      refine .plain ?_ ih
      rintro ⟨h1, h2, h3⟩
      exact h (by simp [h1, h2, h3])

/-- C165. AddSpaceBetweenCapitalizedWords puts in one blank at every joint, and nothing else. -/
theorem C165_spaced (s : Str) : Spaced s (addSpaceBetweenCapitalizedWords s) := by
  cases s with
  | nil => exact .nil
  | cons c s => exact spaceLoop_spec s c

theorem spaceLoop_idem : ∀ (s : Str) (p : Char), spaceLoop p (spaceLoop p s) = spaceLoop p s
  | [], _ => rfl
  | c :: s, p => by
    have ih := spaceLoop_idem s c
    conv_lhs => rw [show spaceLoop p (c :: s) = if isUpper c && !isSpace p && !isUpper p then ' ' :: c :: spaceLoop c s else c :: spaceLoop c s from rfl]
    conv_rhs => rw [show spaceLoop p (c :: s) = if isUpper c && !isSpace p && !isUpper p then ' ' :: c :: spaceLoop c s else c :: spaceLoop c s from rfl]
    by_cases h : (isUpper c && !isSpace p && !isUpper p) = true
    · rw [if_pos h]
      have e1 : isUpper ' ' = false := by decide
      have e2 : isSpace ' ' = true := by decide
      simp only [spaceLoop, e1, e2, Bool.false_and, Bool.false_eq_true, ↓reduceIte, Bool.not_true, Bool.and_false, ih]
    · rw [if_neg h]
      show (if isUpper c && !isSpace p && !isUpper p then _ else _) = _
      rw [if_neg h, ih]

/-- C165. Doing it again changes nothing. -/
theorem C165_spaced_again (s : Str) :
    addSpaceBetweenCapitalizedWords (addSpaceBetweenCapitalizedWords s) = addSpaceBetweenCapitalizedWords s := by
  cases s with
  | nil => rfl
  | cons c s => show c :: spaceLoop c (spaceLoop c s) = _; rw [spaceLoop_idem]; rfl

example : capitalizedWords (c!"the big. cat 4x") = c!"The Big. Cat 4x" := by decide
example : addSpaceBetweenCapitalizedWords (c!"TheBigCatABC dE") = c!"The Big Cat ABC d E" := by decide
example : WordStart (c!"a b") 2 := .inr ⟨' ', by decide, by decide⟩
example : Joint 'e' 'B' := ⟨by decide, by decide, by decide⟩

/-! ### SplitString -/

-- models: vital/kwiversys/SystemTools.cxx:1853-1862 (the search begins behind the first character of the piece; `cur` is the piece so far, backwards)
def splitLoop (sep : Char) : Str → Str → List Str
  | cur, [] => [cur.reverse]
  | [], c :: s => splitLoop sep [c] s
  | a :: cur, c :: s => if c = sep then (a :: cur).reverse :: splitLoop sep [] s else splitLoop sep (c :: a :: cur) s

-- models: vital/kwiversys/SystemTools.cxx:1840-1865 (SplitString)
def splitString (p : Str) (sep : Char) (isPath : Bool) : List Str :=
  match p with
  | [] => []
  | c :: s => if isPath && c == '/' then ['/'] :: splitLoop sep [] s else splitLoop sep [] (c :: s)

/-- The pieces with the separator between them. -/
def joinWith (sep : Char) (l : List Str) : Str := (l.intersperse [sep]).flatten

theorem joinWith_cons {sep : Char} {a : Str} {l : List Str} (h : l ≠ []) : joinWith sep (a :: l) = a ++ sep :: joinWith sep l := by
  cases l with
  | nil => exact absurd rfl h
  | cons b l => simp [joinWith]

theorem splitLoop_ne (sep : Char) : ∀ (s cur : Str), splitLoop sep cur s ≠ []
  | [], cur => by cases cur <;> simp [splitLoop]
  | c :: s, [] => by simp only [splitLoop]; exact splitLoop_ne sep s [c]
  | c :: s, a :: cur => by
    simp only [splitLoop]
    split
    · simp
    · exact splitLoop_ne sep s _

theorem splitLoop_join (sep : Char) : ∀ (s cur : Str), joinWith sep (splitLoop sep cur s) = cur.reverse ++ s
  | [], cur => by cases cur <;> simp [splitLoop, joinWith]
  | c :: s, [] => by
    simp only [splitLoop]; rw [splitLoop_join sep s [c]]; simp
  | c :: s, a :: cur => by
    simp only [splitLoop]
    split
    · rename_i h
      rw [joinWith_cons (splitLoop_ne _ _ _), splitLoop_join sep s []]
      simp [h]
    · rw [splitLoop_join sep s _]; simp

/-- Separator-free behind the first character, non-empty unless it is the last. -/
theorem splitLoop_pieces (sep : Char) : ∀ (s cur : Str), sep ∉ cur.reverse.tail →
    (∀ x ∈ splitLoop sep cur s, sep ∉ x.tail) ∧ (∀ x ∈ (splitLoop sep cur s).dropLast, x ≠ [])
  | [], cur, h => by cases cur <;> simp_all [splitLoop]
  | c :: s, [], h => by
    simp only [splitLoop]; exact splitLoop_pieces sep s [c] (by simp)
  | c :: s, a :: cur, h => by
    simp only [splitLoop]
    split
    · rename_i hc
      obtain ⟨h1, h2⟩ := splitLoop_pieces sep s [] (by simp)
      refine ⟨?_, ?_⟩
      · intro x hx
        rcases List.mem_cons.1 hx with rfl | hx
        · exact h
        · exact h1 x hx
      · intro x hx
        rw [List.dropLast_cons_of_ne_nil (splitLoop_ne _ _ _)] at hx
        rcases List.mem_cons.1 hx with rfl | hx
        · simp
        · exact h2 x hx
    · rename_i hc
      apply splitLoop_pieces
      have : (c :: a :: cur).reverse.tail = (a :: cur).reverse.tail ++ [c] := by
        rw [List.reverse_cons]
        exact List.tail_append_of_ne_nil (by simp)
      rw [this]
      simp only [List.mem_append, List.mem_singleton, not_or]
      exact ⟨h, fun e => hc e.symm⟩

/-- C166, proved part: the pieces joined by the separator give the text back (for a path, the text behind the root), every piece but the last is non-empty,
and the separator stands in a piece at most as its first character. -/
theorem C166_pieces_partial (p : Str) (sep : Char) (isPath : Bool) (hp : p ≠ []) :
    ∃ l : List Str, l ≠ [] ∧ (∀ x ∈ l, sep ∉ x.tail) ∧ (∀ x ∈ l.dropLast, x ≠ []) ∧
      ((isPath = true ∧ p.head? = some '/' ∧ splitString p sep isPath = ['/'] :: l ∧ joinWith sep l = p.tail) ∨
        (¬ (isPath = true ∧ p.head? = some '/') ∧ splitString p sep isPath = l ∧ joinWith sep l = p)) := by
  match p, hp with
  | c :: s, _ =>
    by_cases h : isPath = true ∧ c = '/'
    · obtain ⟨h1, h2⟩ := splitLoop_pieces sep s [] (by simp)
      refine ⟨splitLoop sep [] s, splitLoop_ne _ _ _, h1, h2, .inl ⟨h.1, by simp [h.2], ?_, ?_⟩⟩
      · simp [splitString, h.1, h.2]
      · rw [splitLoop_join]; rfl
    · obtain ⟨h1, h2⟩ := splitLoop_pieces sep (c :: s) [] (by simp)
      refine ⟨splitLoop sep [] (c :: s), splitLoop_ne _ _ _, h1, h2, .inr ⟨by simpa using h, ?_, ?_⟩⟩
      · have : ¬ (isPath && c == '/') = true := by simpa using h
        unfold splitString; simp only [this, if_false, Bool.false_eq_true]
      · rw [splitLoop_join]; rfl

/-- C166 refuted: a separator at the beginning of a piece is not seen, so a piece may contain it. -/
theorem C166_refuted :
    splitString (c!"a//b") '/' false = [c!"a", c!"/b"] ∧ splitString (c!",a,b") ',' false = [c!",a", c!"b"] ∧
      splitString (c!"//srv/x") '/' true = [c!"/", c!"/srv", c!"x"] := by decide

theorem splitLoop_exact (sep : Char) : ∀ (l : List Str) (cur : Str), (∀ x ∈ l, sep ∉ x) → sep ∉ cur → (∀ x ∈ l.dropLast, x ≠ []) →
    ∀ a l', l = a :: l' → (cur ≠ [] ∨ a ≠ [] ∨ l' = []) →
    splitLoop sep cur (joinWith sep l) = (cur.reverse ++ a) :: l' := by
  intro l
  induction l with
  | nil => intro _ _ _ _ a l' h; cases h
  | cons x l ih =>
    intro cur hsep hcur hne a l' h hq
    cases h
    -- walk through x
    have walk : ∀ (y cur rest : Str), sep ∉ y → (rest = [] ∨ ∃ r, rest = sep :: r) → (cur ≠ [] ∨ y ≠ [] ∨ rest = []) →
        splitLoop sep cur (y ++ rest) = (cur.reverse ++ y) :: (match rest with | [] => [] | _ :: r => splitLoop sep [] r) := by
      intro y
      induction y with
      | nil =>
        intro cur rest _ hr hq
        cases cur with
        | nil =>
          rcases hr with rfl | ⟨r, rfl⟩
          · simp [splitLoop]
          · simp at hq
        | cons b cur =>
          rcases hr with rfl | ⟨r, rfl⟩
          · simp [splitLoop]
          · simp [splitLoop]
      | cons z y ihy =>
        intro cur rest hy hr _
        simp only [List.mem_cons, not_or] at hy
        cases cur with
        | nil =>
          simp only [List.cons_append, splitLoop]
          rw [ihy [z] rest hy.2 hr (by simp)]
          simp
        | cons b cur =>
          simp only [List.cons_append, splitLoop]
          rw [if_neg (Ne.symm hy.1), ihy _ rest hy.2 hr (by simp)]
          simp
    cases l with
    | nil =>
      have : joinWith sep [x] = x ++ [] := by simp [joinWith]
      rw [this, walk x cur [] (hsep x (by simp)) (.inl rfl) (by simp)]
    | cons b l =>
      rw [joinWith_cons (by simp)]
      rw [walk x cur _ (hsep x (by simp)) (.inr ⟨_, rfl⟩) (by rcases hq with h | h | h <;> simp_all)]
      simp only
      have hb : b ≠ [] ∨ l = [] := by
        cases l with
        | nil => exact .inr rfl
        | cons => exact .inl (hne b (by simp))
      have := ih [] (fun y hy => hsep y (by simp [hy])) (by simp) (fun y hy => hne y (by
        rw [List.dropLast_cons_of_ne_nil (by simp)]; exact List.mem_cons_of_mem _ hy)) b l rfl (by rcases hb with h | h <;> simp [h])
      rw [this]; simp

/-- C166, proved part: a text made of separator-free pieces, non-empty except possibly the last, is split into just these pieces. -/
theorem C166_exact_partial (sep : Char) (l : List Str) (hl : l ≠ []) (hsep : ∀ x ∈ l, sep ∉ x) (hne : ∀ x ∈ l.dropLast, x ≠ [])
    (hj : joinWith sep l ≠ []) : splitString (joinWith sep l) sep false = l := by
  match l, hl with
  | a :: l', _ =>
    have hq : ([] : Str) ≠ [] ∨ a ≠ [] ∨ l' = [] := by
      cases l' with
      | nil => simp
      | cons b l' => exact .inr (.inl (hne a (by simp)))
    have := splitLoop_exact sep (a :: l') [] hsep (by simp) hne a l' rfl hq
    generalize joinWith sep (a :: l') = t at *
    cases t with
    | nil => exact absurd rfl hj
    | cons c s => simpa [splitString] using this

example : splitString (c!"/usr/lib/x") '/' true = [c!"/", c!"usr", c!"lib", c!"x"] := by decide
example : joinWith ':' [c!"a", c!"bc", c!""] = c!"a:bc:" := by decide

/-! ### CropString -/

-- models: vital/kwiversys/SystemTools.cxx:1807-1837 (CropString; `set` is `n[i] = '.'`)
def cropString (s : Str) (m : Nat) : Str :=
  if s = [] ∨ m = 0 ∨ s.length ≤ m then s
  else
    let n := s.take (m / 2) ++ s.drop (s.length - (m - m / 2))
    if 2 < m then
      let n := n.set (m / 2) '.'
      if 3 < m then
        let n := n.set (m / 2 - 1) '.'
        if 4 < m then n.set (m / 2 + 1) '.' else n
      else n
    else n

/-- C167. CropString leaves a text alone that is not too long; otherwise it gives exactly `m` characters: a beginning of the text, up to three dots, and an
end of the text, the two being equally long or the beginning one longer. -/
theorem C167_crop (s : Str) (m : Nat) :
    (m = 0 ∨ s.length ≤ m → cropString s m = s) ∧
      (0 < m → m < s.length → ∃ h t : Str, ∃ d : Nat, cropString s m = h ++ List.replicate d '.' ++ t ∧ h <+: s ∧ t <:+ s ∧
        h.length + d + t.length = m ∧ d = min 3 (m - 2) ∧ (2 < m → t.length ≤ h.length ∧ h.length ≤ t.length + 1)) := by
  constructor
  · intro h
    unfold cropString
    rw [if_pos]
    rcases h with h | h
    · exact .inr (.inl h)
    · exact .inr (.inr h)
  · intro h0 hlt
    have hs : s ≠ [] := by intro h; subst h; simp at hlt
    unfold cropString
    rw [if_neg (by rintro (h | h | h); exact hs h; omega; omega)]
    -- the uncropped halves, pointwise
    have hdec : ∀ (a b d : Nat), a + d + b = m → a ≤ m / 2 → b ≤ m - m / 2 → ∀ f : Str → Str, (∀ n : Str, n.length = m → (f n).length = m) →
        (∀ n : Str, n.length = m → ∀ i, i < a ∨ a + d ≤ i → (f n)[i]? = n[i]?) →
        (∀ n : Str, n.length = m → ∀ i, a ≤ i → i < a + d → (f n)[i]? = some '.') →
        f (s.take (m / 2) ++ s.drop (s.length - (m - m / 2))) = s.take a ++ List.replicate d '.' ++ s.drop (s.length - b) := by
      intro a b d hm ha hb f hf1 hf2 hf3
      have hn : (s.take (m / 2) ++ s.drop (s.length - (m - m / 2))).length = m := by simp; omega
      apply List.ext_getElem?
      intro i
      by_cases h1 : i < a
      · rw [hf2 _ hn i (.inl h1), List.getElem?_append_left (by simp; omega), List.append_assoc, List.getElem?_append_left (by simp; omega)]
        rw [List.getElem?_take_of_lt (by omega), List.getElem?_take_of_lt h1]
      · by_cases h2 : i < a + d
        · rw [hf3 _ hn i (by omega) h2, List.append_assoc, List.getElem?_append_right (by simp; omega), List.getElem?_append_left (by simp; omega)]
          rw [List.getElem?_replicate, if_pos (by simp; omega)]
        · rw [hf2 _ hn i (.inr (by omega))]
          rw [List.getElem?_append_right (by simp; omega), List.getElem?_append_right (by simp; omega)]
          rw [List.getElem?_drop, List.getElem?_drop]
          congr 1
          simp; omega
    by_cases h2 : 2 < m
    · simp only [h2, ↓reduceIte]
      by_cases h3 : 3 < m
      · simp only [h3, ↓reduceIte]
        by_cases h4 : 4 < m
        · simp only [h4, ↓reduceIte]
          refine ⟨s.take (m / 2 - 1), s.drop (s.length - (m - m / 2 - 2)), 3, ?_, List.take_prefix _ _, List.drop_suffix _ _, ?_, ?_, ?_⟩
          · refine hdec (m / 2 - 1) (m - m / 2 - 2) 3 (by omega) (by omega) (by omega)
              (fun n => ((n.set (m / 2) '.').set (m / 2 - 1) '.').set (m / 2 + 1) '.') ?_ ?_ ?_
            · intro n hn; simp [hn]
            · intro n hn i hi
              simp only [List.getElem?_set]
              rw [if_neg (by omega), if_neg (by omega), if_neg (by omega)]
            · intro n hn i hi1 hi2
              simp only [List.getElem?_set, List.length_set, hn]
              have : i = m / 2 - 1 ∨ i = m / 2 ∨ i = m / 2 + 1 := by omega
              rcases this with h | h | h
              · rw [if_neg (by omega), if_pos h.symm, if_pos (by omega)]
              · rw [if_neg (by omega), if_neg (by omega), if_pos h.symm, if_pos (by omega)]
              · rw [if_pos h.symm, if_pos (by omega)]
          · simp; omega
          · omega
          · intro _; simp; omega
        · simp only [h4, ↓reduceIte]
          have : m = 4 := by omega
          subst this
          refine ⟨s.take 1, s.drop (s.length - 1), 2, ?_, List.take_prefix _ _, List.drop_suffix _ _, ?_, ?_, ?_⟩
          · refine hdec 1 1 2 (by omega) (by omega) (by omega) (fun n => (n.set (4 / 2) '.').set (4 / 2 - 1) '.') ?_ ?_ ?_
            · intro n hn; simp [hn]
            · intro n hn i hi
              simp only [List.getElem?_set]
              rw [if_neg (by omega), if_neg (by omega)]
            · intro n hn i hi1 hi2
              simp only [List.getElem?_set, List.length_set, hn]
              have : i = 1 ∨ i = 2 := by omega
              rcases this with h | h <;> simp [h]
          · simp; omega
          · omega
          · intro _; simp; omega
      · simp only [h3, ↓reduceIte]
        have : m = 3 := by omega
        subst this
        refine ⟨s.take 1, s.drop (s.length - 1), 1, ?_, List.take_prefix _ _, List.drop_suffix _ _, ?_, ?_, ?_⟩
        · refine hdec 1 1 1 (by omega) (by omega) (by omega) (fun n => n.set (3 / 2) '.') ?_ ?_ ?_
          · intro n hn; simp [hn]
          · intro n hn i hi
            simp only [List.getElem?_set]
            rw [if_neg (by omega)]
          · intro n hn i hi1 hi2
            simp only [List.getElem?_set, hn]
            have : i = 1 := by omega
            simp [this]
        · simp; omega
        · omega
        · intro _; simp; omega
    · simp only [h2, ↓reduceIte]
      refine ⟨s.take (m / 2), s.drop (s.length - (m - m / 2)), 0, by simp, List.take_prefix _ _, List.drop_suffix _ _, ?_, by omega, fun h => ?_⟩
      · simp; omega
      · exact h.elim

example : cropString (c!"a long sentence") 7 = c!"a ...ce" ∧ cropString (c!"abcdef") 4 = c!"a..f" ∧ cropString (c!"abc") 2 = c!"ac" := by decide

/-! ### EscapeChars -/

-- models: vital/kwiversys/SystemTools.cxx:1950-1962 (the inner loop: is the character one of those to be escaped)
def toBeEscaped (c : Char) : Str → Bool
  | [] => false
  | d :: l => if c = d then true else toBeEscaped c l

-- models: vital/kwiversys/SystemTools.cxx:1948-1966 (the outer loop)
def escapeLoop (chars : Str) (e : Char) : Str → Str
  | [] => []
  | c :: s => if toBeEscaped c chars then e :: c :: escapeLoop chars e s else c :: escapeLoop chars e s

-- models: vital/kwiversys/SystemTools.cxx:1933-1969 (EscapeChars)
def escapeChars (str chars : Option Str) (e : Char) : Str :=
  match str with
  | none => []
  | some s =>
    match chars with
    | none => s
    | some [] => s
    | some (c :: l) => escapeLoop (c :: l) e s

theorem toBeEscaped_iff {c : Char} {l : Str} : toBeEscaped c l = true ↔ c ∈ l := by
  induction l with
  | nil => simp [toBeEscaped]
  | cons d l ih =>
    unfold toBeEscaped
    split
    · rename_i h; simp [h]
    · rename_i h; simp [h, ih]

/-- The usual reading of an escaped text: the escape character stands for the character behind it. -/
def unescape (e : Char) : Str → Str
  | [] => []
  | [c] => [c]
  | c :: d :: s => if c = e then d :: unescape e s else c :: unescape e (d :: s)

theorem unescape_escape {e : Char} {chars : Str} (he : e ∈ chars) : ∀ s : Str, unescape e (escapeLoop chars e s) = s
  | [] => rfl
  | c :: s => by
    have ih := unescape_escape he s
    unfold escapeLoop
    by_cases h : toBeEscaped c chars = true
    · rw [if_pos h]; simp [unescape, ih]
    · rw [if_neg h]
      have hc : c ≠ e := fun hce => h (toBeEscaped_iff.2 (hce ▸ he))
      generalize escapeLoop chars e s = t at ih
      cases t with
      | nil => simp only [unescape] at ih ⊢; rw [← ih]
      | cons d t => simp only [unescape, if_neg hc, ih]

theorem escapeLoop_eq (chars : Str) (e : Char) (s : Str) : escapeLoop chars e s = s.flatMap fun c => if c ∈ chars then [e, c] else [c] := by
  induction s with
  | nil => rfl
  | cons c s ih =>
    unfold escapeLoop
    simp only [List.flatMap_cons, ← ih, toBeEscaped_iff]
    split <;> rfl

/-- C168. Exactly the listed characters get the escape character in front of them. -/
theorem C168_escape (s : Str) (chars : Str) (e : Char) :
    escapeChars (some s) (some chars) e = (s.flatMap fun c => if c ∈ chars then [e, c] else [c]) ∧ escapeChars (some s) none e = s ∧
      escapeChars none (some chars) e = [] := by
  refine ⟨?_, rfl, rfl⟩
  cases chars with
  | nil => show s = _; simp
  | cons c l => exact escapeLoop_eq _ _ _

/-- C168. If the escape character is among them, the usual reading gives the text back. -/
theorem C168_unescape (s : Str) (chars : Str) (e : Char) (he : e ∈ chars) : unescape e (escapeChars (some s) (some chars) e) = s := by
  cases chars with
  | nil => cases he
  | cons c l => exact unescape_escape he s

theorem escapeLoop_inj {chars : Str} {e : Char} : ∀ {s t : Str}, escapeLoop chars e s = escapeLoop chars e t → s = t
  | [], [], _ => rfl
  | [], d :: t, h => by
    unfold escapeLoop at h
    split at h <;> cases h
  | c :: s, [], h => by
    unfold escapeLoop at h
    split at h <;> cases h
  | c :: s, d :: t, h => by
    unfold escapeLoop at h
    have hd : ∀ (x : Char) (y u : Str), toBeEscaped x chars = true → x :: y = escapeLoop chars e u → x = e := by
      intro x y u hx hu
      cases u with
      | nil => cases hu
      | cons z u =>
        unfold escapeLoop at hu
        split at hu
        · cases hu; rfl
        · rename_i hz
          cases hu
          exact absurd hx hz
    split at h
    · rename_i hc
      split at h
      · simp only [List.cons.injEq] at h
        rw [h.2.1, escapeLoop_inj h.2.2]
      · rename_i hdn
        simp only [List.cons.injEq] at h
        have e1 := hd c _ t hc h.2
        rw [e1, h.1] at hc
        exact absurd hc hdn
    · rename_i hcn
      split at h
      · rename_i hdc
        simp only [List.cons.injEq] at h
        have e1 := hd d _ s hdc h.2.symm
        rw [e1, ← h.1] at hdc
        exact absurd hdc hcn
      · simp only [List.cons.injEq] at h
        rw [h.1, escapeLoop_inj h.2]

/-- C168. Whatever the escape character, different texts have different escaped texts. -/
theorem C168_injective (s t : Str) (chars : Option Str) (e : Char) (h : escapeChars (some s) chars e = escapeChars (some t) chars e) : s = t := by
  match chars with
  | none => exact h
  | some [] => exact h
  | some (c :: l) => exact escapeLoop_inj h

/-- C168: an escape character that is not itself listed is not escaped, and the usual reading gives another text. -/
theorem C168_unescape_refuted : unescape '\\' (escapeChars (some (c!"a\\b c")) (some (c!" ")) '\\') = c!"ab c" := by decide

example : escapeChars (some (c!"a\"b\\")) (some (c!"\"\\")) '\\' = c!"a\\\"b\\\\" := by decide

end Vital.Strs
