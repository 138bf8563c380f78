import Verif.Sys.Strings2
import Mathlib.Data.Fintype.Fin
import Mathlib.Tactic.FinCases
/-
  Model of SystemTools::EstimateFormatLength, ConvertDateMacroString and ConvertTimeStampMacroString (vital/kwiversys/SystemTools.cxx); properties C179 and C180.
-/
namespace Vital.Formats
open Vital Vital.Strs

/-! ### EstimateFormatLength -/

/-- A variable argument: a string (of some length, or a null pointer), a double, or something of the size of an int. -/
inductive Arg | str (len : Option Nat) | dbl | int_
  deriving DecidableEq

-- models: vital/kwiversys/SystemTools.cxx:1903-1930 (the switch: what is added, and the remaining arguments; `none`: va_arg without an argument of that type)
def convLen (letter : Char) : List Arg → Option (Nat × List Arg)
  | .str n :: args => if letter = 's' then some (n.getD 0, args) else none
  | .dbl :: args => if letter ∈ c!"efg" then some (64, args) else none
  | .int_ :: args => if letter = 's' ∨ letter ∈ c!"efg" then none else some (64, args)
  | [] => none

-- models: vital/kwiversys/SystemTools.cxx:1886-1937 (the loop; `inConv`: skipping characters behind a `%` until a letter; `none`: a read behind the end of
-- the format, or of an argument that is not there)
def estLoop : Str → Bool → List Arg → Option Nat
  | [], false, _ => some 0
  | [], true, _ => none
  | c :: s, true, args =>
    if isAlpha c then (convLen c args).bind fun r => (estLoop s false r.2).map (r.1 + ·)
    else estLoop s true args
  | '%' :: '%' :: s, false, args => estLoop s false args
  | '%' :: s, false, args => estLoop s true args
  | _ :: s, false, args => estLoop s false args

-- models: vital/kwiversys/SystemTools.cxx:1868-1940 (EstimateFormatLength; lengths below 2^31)
def estimateFormatLength (format : Option Str) (args : List Arg) : Option Nat :=
  match format with
  | none => some 0
  | some f => (estLoop f false args).map (f.length + ·)

/-- Specification: the parts of a format, with what printf prints for them. -/
inductive Item
  | lit (c : Char)
  | percent
  | conv (mods : Str) (letter : Char) (arg : Arg) (printed : Nat)

def Item.text : Item → Str
  | .lit c => [c]
  | .percent => ['%', '%']
  | .conv mods letter _ _ => '%' :: mods ++ [letter]

def Item.args : Item → List Arg
  | .conv _ _ arg _ => [arg]
  | _ => []

def Item.printed : Item → Nat
  | .lit _ => 1
  | .percent => 1
  | .conv _ _ _ n => n

/-- A part for which the assumptions of the function hold: one letter behind the flags, width and precision, an argument of its type, and no more than 64
characters printed - for a string no more than it has. -/
def Item.Ok : Item → Prop
  | .lit c => c ≠ '%'
  | .percent => True
  | .conv mods letter arg n => (∀ c ∈ mods, isAlpha c = false ∧ c ≠ '%') ∧ isAlpha letter = true ∧
      match arg with
      | .str none => False
      | .str (some l) => letter = 's' ∧ n ≤ l
      | .dbl => letter ∈ c!"efg" ∧ n ≤ 64
      | .int_ => letter ≠ 's' ∧ letter ∉ c!"efg" ∧ n ≤ 64

theorem estLoop_conv (mods : Str) (letter : Char) (s : Str) (args : List Arg) (hm : ∀ c ∈ mods, isAlpha c = false) (hl : isAlpha letter = true) :
    estLoop (mods ++ letter :: s) true args = (convLen letter args).bind fun r => (estLoop s false r.2).map (r.1 + ·) := by
  induction mods with
  | nil => simp [estLoop, hl]
  | cons c mods ih =>
    simp only [List.cons_append, estLoop]
    rw [hm c (by simp)]
    exact ih (fun d hd => hm d (by simp [hd]))

theorem estLoop_start (mods : Str) (letter : Char) (s : Str) (args : List Arg) (hm : ∀ c ∈ mods, isAlpha c = false ∧ c ≠ '%') (hl : isAlpha letter = true) :
    estLoop ('%' :: mods ++ letter :: s) false args = (convLen letter args).bind fun r => (estLoop s false r.2).map (r.1 + ·) := by
  have hne : ∀ t, mods ++ letter :: s ≠ '%' :: t := by
    intro t h
    cases mods with
    | nil =>
      simp only [List.nil_append, List.cons.injEq] at h
      rw [h.1] at hl; exact absurd hl (by decide)
    | cons c mods =>
      simp only [List.cons_append, List.cons.injEq] at h
      exact (hm c (by simp)).2 h.1
  have : estLoop ('%' :: (mods ++ letter :: s)) false args = estLoop (mods ++ letter :: s) true args := by
    generalize mods ++ letter :: s = u at *
    cases u with
    | nil => rfl
    | cons c u =>
      exact estLoop.eq_5 _ _ (fun t h => hne t h)
  rw [List.cons_append, this, estLoop_conv mods letter s args (fun c hc => (hm c hc).1) hl]

/-- C179, proved part: under these assumptions the estimate is at least as large as what is printed. -/
theorem C179_enough_partial (items : List Item) (h : ∀ i ∈ items, i.Ok) :
    ∃ n, estimateFormatLength (some (items.flatMap Item.text)) (items.flatMap Item.args) = some n ∧ (items.map Item.printed).sum ≤ n := by
  suffices hs : ∃ m, estLoop (items.flatMap Item.text) false (items.flatMap Item.args) = some m ∧
      (items.map Item.printed).sum ≤ (items.flatMap Item.text).length + m by
    obtain ⟨m, h1, h2⟩ := hs
    exact ⟨_, by show (estLoop _ false _).map _ = _; rw [h1]; rfl, h2⟩
  induction items with
  | nil => exact ⟨0, rfl, Nat.le_refl _⟩
  | cons i items ih =>
    obtain ⟨m, h1, h2⟩ := ih (fun x hx => h x (by simp [hx]))
    have hi := h i (by simp)
    simp only [List.flatMap_cons, List.map_cons, List.sum_cons, List.length_append]
    cases i with
    | lit c =>
      refine ⟨m, ?_, ?_⟩
      · show estLoop (c :: items.flatMap Item.text) false _ = some m
        have : estLoop (c :: items.flatMap Item.text) false (items.flatMap Item.args) = estLoop (items.flatMap Item.text) false (items.flatMap Item.args) := by
          rw [estLoop]
          · intro s hc; exact absurd hc hi
          · intro hc; exact absurd hc hi
        rw [show (Item.lit c).args ++ items.flatMap Item.args = items.flatMap Item.args from rfl, this, h1]
      · simp only [Item.printed, Item.text, List.length_singleton]; omega
    | percent =>
      refine ⟨m, ?_, ?_⟩
      · show estLoop ('%' :: '%' :: items.flatMap Item.text) false (items.flatMap Item.args) = some m
        simp only [estLoop, h1]
      · simp only [Item.printed, Item.text, List.length_cons, List.length_nil]; omega
    | conv mods letter arg n =>
      obtain ⟨hm, hl, ha⟩ := hi
      have e : (Item.conv mods letter arg n).text ++ items.flatMap Item.text = '%' :: mods ++ letter :: items.flatMap Item.text := by
        simp [Item.text]
      rw [e, estLoop_start mods letter _ _ hm hl]
      have key : ∃ k, convLen letter ((Item.conv mods letter arg n).args ++ items.flatMap Item.args) = some (k, items.flatMap Item.args) ∧ n ≤ k := by
        show ∃ k, convLen letter (arg :: items.flatMap Item.args) = _ ∧ _
        cases arg with
        | str l =>
          cases l with
          | none => exact absurd ha id
          | some l => exact ⟨l, by simp [convLen, ha.1], ha.2⟩
        | dbl =>
          refine ⟨64, ?_, ha.2⟩
          show (if letter ∈ c!"efg" then _ else none) = _
          rw [if_pos ha.1]
        | int_ =>
          refine ⟨64, ?_, ha.2.2⟩
          show (if letter = 's' ∨ letter ∈ c!"efg" then none else _) = _
          rw [if_neg (by rintro (h | h); exact ha.1 h; exact ha.2.1 h)]
      obtain ⟨k, hk, hnk⟩ := key
      refine ⟨k + m, ?_, ?_⟩
      · rw [hk]
        show (estLoop (items.flatMap Item.text) false (items.flatMap Item.args)).map (k + ·) = _
        rw [h1]; rfl
      · simp only [Item.printed, List.length_append, Item.text, List.length_cons]; omega

/-- C179 refuted ("the returned length will always be at least as large as the string that will result from printing"): a width, and a null string (printed as
`(null)`), give more; and a `%` without a letter behind it leads behind the end of the format. -/
theorem C179_refuted :
    estimateFormatLength (some (c!"%100d")) [.int_] = some 69 ∧ estimateFormatLength (some (c!"%s")) [.str none] = some 2 ∧
      estimateFormatLength (some (c!"100% (of 3)")) [] = none ∧ estimateFormatLength (some (c!"50%")) [] = none := by decide

example : estimateFormatLength (some (c!"%s: %5.2f%%")) [.str (some 4), .dbl] = some 79 := by decide
example : (Item.conv (c!"5.2") 'f' .dbl 12).Ok := ⟨by decide, by decide, by decide, by decide⟩

/-! ### The date macros -/

/-- A buffer: a byte that was never written is `none`. -/
abbrev Buf := List (Option Char)

/-- `strcpy` into a fresh buffer of `n` bytes. -/
def bufOf (n : Nat) (s : Str) : Buf := (s ++ ['\x00']).map some ++ List.replicate (n - s.length - 1) none

/-- `atoi`: leading white space, a sign, digits. `none`: a byte is read that was never written, or behind the buffer. -/
def digitsVal : Buf → Nat → Option Nat
  | some c :: b, acc => if isDigit c then digitsVal b (acc * 10 + (c.toNat - 48)) else some acc
  | _, _ => none

def atoi : Buf → Option Int
  | some c :: b =>
    if isSpace c then atoi b
    else if c = '-' then (digitsVal b 0).map fun n => -(n : Int)
    else if c = '+' then (digitsVal b 0).map fun n => (n : Int)
    else (digitsVal (some c :: b) 0).map fun n => (n : Int)
  | _ => none

def monthNames : Str := c!"JanFebMarAprMayJunJulAugSepOctNovDec"

/-- The text at a position of the buffer up to the NUL; `none` if a byte before it was never written. -/
def textAt : Buf → Option Str
  | some c :: b => if c = '\x00' then some [] else (textAt b).map (c :: ·)
  | _ => none

/-- The fields handed to mktime, which is not modelled. -/
structure Tm where
  mon : Int
  mday : Int
  year : Int
  hour : Int := 0
  min : Int := 0
  sec : Int := 0
  deriving DecidableEq

-- models: vital/kwiversys/SystemTools.cxx:2650-2698 (ConvertDateMacroString; outer `none`: undefined, inner `none`: false is returned; tmt is not null)
def convertDate (str : Option Str) : Option (Option Tm) :=
  match str with
  | none => some none
  | some s =>
    if 11 < s.length then some none
    else
      let b := (bufOf 12 s).set 3 (some '\x00')
      match textAt b with
      | none => none
      | some m =>
        match strstr m monthNames with
        | none => some none
        | some p =>
          match atoi (b.drop 4), atoi (b.drop 7) with
          | some day, some year => some (some { mon := (p / 3 : Nat), mday := day, year := year - 1900 })
          | _, _ => none

-- models: vital/kwiversys/SystemTools.cxx:2700-2753 (ConvertTimeStampMacroString)
def convertTimeStamp (str : Option Str) : Option (Option Tm) :=
  match str with
  | none => some none
  | some s =>
    if 26 < s.length then some none
    else
      let b := (bufOf 27 s).set 7 (some '\x00')
      match textAt (b.drop 4) with
      | none => none
      | some m =>
        match strstr m monthNames with
        | none => some none
        | some p =>
          match atoi (b.drop 8), atoi (b.drop 11), atoi (b.drop 14), atoi (b.drop 17), atoi (b.drop 20) with
          | some day, some hour, some min, some sec, some year =>
            some (some { mon := (p / 3 : Nat), mday := day, year := year - 1900, hour := hour, min := min, sec := sec })
          | _, _, _, _, _ => none

/-- Specification: the names of the months, and numbers with a fixed number of digits. -/
def months : List Str := [c!"Jan", c!"Feb", c!"Mar", c!"Apr", c!"May", c!"Jun", c!"Jul", c!"Aug", c!"Sep", c!"Oct", c!"Nov", c!"Dec"]

def dig (n : Fin 10) : Char := Char.ofNat (48 + n)

/-- Two characters, with a blank or a zero in front of a single digit. -/
def IsTwo (s : Str) (n : Nat) : Prop := (∃ a b : Fin 10, s = [dig a, dig b] ∧ n = a * 10 + b) ∨ (∃ b : Fin 10, s = [' ', dig b] ∧ n = b)

def IsFour (s : Str) (n : Nat) : Prop := ∃ a b c d : Fin 10, s = [dig a, dig b, dig c, dig d] ∧ n = ((a * 10 + b) * 10 + c) * 10 + d

theorem dig_facts : ∀ n : Fin 10, isDigit (dig n) = true ∧ isSpace (dig n) = false ∧ dig n ≠ '-' ∧ dig n ≠ '+' ∧ (dig n).toNat - 48 = n ∧ dig n ≠ '\x00' := by decide

theorem atoi_two {s : Str} {n : Nat} (h : IsTwo s n) (e : Char) (he : isDigit e = false) (rest : Buf) :
    atoi (s.map some ++ some e :: rest) = some (n : Int) := by
  rcases h with ⟨a, b, rfl, rfl⟩ | ⟨b, rfl, rfl⟩
  · obtain ⟨a1, a2, a3, a4, a5, _⟩ := dig_facts a
    obtain ⟨b1, b2, b3, b4, b5, _⟩ := dig_facts b
    simp [atoi, digitsVal, a1, a2, a3, a4, a5, b1, b2, b3, b4, b5, he]
  · obtain ⟨b1, b2, b3, b4, b5, _⟩ := dig_facts b
    have : isSpace ' ' = true := by decide
    simp [atoi, digitsVal, b1, b2, b3, b4, b5, he, this]

theorem atoi_four {s : Str} {n : Nat} (h : IsFour s n) (e : Char) (he : isDigit e = false) (rest : Buf) :
    atoi (s.map some ++ some e :: rest) = some (n : Int) := by
  obtain ⟨a, b, c, d, rfl, rfl⟩ := h
  obtain ⟨a1, a2, a3, a4, a5, _⟩ := dig_facts a
  obtain ⟨b1, b2, b3, b4, b5, _⟩ := dig_facts b
  obtain ⟨c1, c2, c3, c4, c5, _⟩ := dig_facts c
  obtain ⟨d1, d2, d3, d4, d5, _⟩ := dig_facts d
  simp [atoi, digitsVal, a1, a2, a3, a4, a5, b1, b5, c1, c5, d1, d5, he]

theorem two_length {s : Str} {n : Nat} (h : IsTwo s n) : ∃ x y, s = [x, y] := by
  rcases h with ⟨a, b, rfl, _⟩ | ⟨b, rfl, _⟩ <;> exact ⟨_, _, rfl⟩

theorem four_length {s : Str} {n : Nat} (h : IsFour s n) : ∃ x y z u, s = [x, y, z, u] := by
  obtain ⟨a, b, c, d, rfl, _⟩ := h; exact ⟨_, _, _, _, rfl⟩

theorem month_facts : ∀ i : Fin 12, ∃ x y z : Char, months[i] = [x, y, z] ∧ x ≠ '\x00' ∧ y ≠ '\x00' ∧ z ≠ '\x00' ∧ strstr [x, y, z] monthNames = some (3 * i.val) := by
  intro i
  fin_cases i <;> exact ⟨_, _, _, rfl, by decide, by decide, by decide, by decide⟩

/-- C180, proved part: a date as `__DATE__` gives it is read as its month, day and year. -/
theorem C180_date_partial (i : Fin 12) (sd sy : Str) (d y : Nat) (hd : IsTwo sd d) (hy : IsFour sy y) :
    convertDate (some (months[i] ++ [' '] ++ sd ++ [' '] ++ sy)) = some (some { mon := i.val, mday := d, year := (y : Int) - 1900 }) := by
  obtain ⟨x1, x2, x3, hm, h1, h2, h3, hs⟩ := month_facts i
  obtain ⟨d1, d2, hsd⟩ := two_length hd
  obtain ⟨y1, y2, y3, y4, hsy⟩ := four_length hy
  have e1 := atoi_two hd ' ' (by decide) (some y1 :: some y2 :: some y3 :: some y4 :: some '\x00' :: [])
  have e2 := atoi_four hy '\x00' (by decide) []
  subst hsd hsy
  rw [hm]
  have e3 : isSpace ' ' = true := by decide
  have e4 : atoi [some y1, some y2, some y3, some y4, some '\x00'] = some (y : Int) := e2
  simp only [List.map_cons, List.map_nil, List.cons_append, List.nil_append] at e1
  simp only [convertDate, List.cons_append, List.nil_append, List.length_cons, List.length_nil, bufOf, List.map_cons, List.map_nil, List.set_cons_succ,
    List.set_cons_zero, textAt, if_neg h1, if_neg h2, if_neg h3, Option.map_some, hs, List.drop_succ_cons, List.drop_zero, e1]
  simp only [Nat.reduceAdd, Nat.reduceSub, Nat.reduceLT, ↓reduceIte, List.replicate_zero, List.append_nil, e4, e1, Option.map_some, hs]
  simp

/-- C180, proved part: a time stamp as `__TIMESTAMP__` gives it is read as its month, day, time and year; the day of the week is not looked at. -/
theorem C180_stamp_partial (i : Fin 12) (w1 w2 w3 : Char) (hw : w1 ≠ '\x00' ∧ w2 ≠ '\x00' ∧ w3 ≠ '\x00') (sd sh sm ss sy : Str) (d h m s y : Nat)
    (hd : IsTwo sd d) (hh : IsTwo sh h) (hmi : IsTwo sm m) (hse : IsTwo ss s) (hy : IsFour sy y) :
    convertTimeStamp (some ([w1, w2, w3, ' '] ++ months[i] ++ [' '] ++ sd ++ [' '] ++ sh ++ [':'] ++ sm ++ [':'] ++ ss ++ [' '] ++ sy)) =
      some (some { mon := i.val, mday := d, year := (y : Int) - 1900, hour := h, min := m, sec := s }) := by
  obtain ⟨x1, x2, x3, hm, h1, h2, h3, hs⟩ := month_facts i
  obtain ⟨d1, d2, rfl⟩ := two_length hd
  obtain ⟨t1, t2, rfl⟩ := two_length hh
  obtain ⟨m1, m2, rfl⟩ := two_length hmi
  obtain ⟨s1, s2, rfl⟩ := two_length hse
  obtain ⟨y1, y2, y3, y4, rfl⟩ := four_length hy
  have e1 := fun r => atoi_two hd ' ' (by decide) r
  have e2 := fun r => atoi_two hh ':' (by decide) r
  have e3 := fun r => atoi_two hmi ':' (by decide) r
  have e4 := fun r => atoi_two hse ' ' (by decide) r
  have e5 := fun r => atoi_four hy '\x00' (by decide) r
  simp only [List.map_cons, List.map_nil, List.cons_append, List.nil_append] at e1 e2 e3 e4 e5
  rw [hm]
  simp only [convertTimeStamp, List.cons_append, List.nil_append, List.length_cons, List.length_nil, bufOf, List.map_cons, List.map_nil, List.set_cons_succ,
    List.set_cons_zero, List.drop_succ_cons, List.drop_zero, textAt, if_neg h1, if_neg h2, if_neg h3, Option.map_some, hs, e1, e2, e3, e4, e5]
  simp only [Nat.reduceAdd, Nat.reduceSub, Nat.reduceLT, ↓reduceIte, Option.map_some, hs, e1, e2, e3, e4, e5]
  simp

/-- C180 refuted ("return false on error"): a text that is too short is read behind its end, letters that are not the name of a month may be taken for one, and
what should be numbers need not be any. -/
theorem C180_refuted :
    convertDate (some []) = none ∧ convertDate (some (c!"Jan")) = none ∧
    convertDate (some (c!"anF 01 2000")) = some (some { mon := 0, mday := 1, year := 100 }) ∧
    convertDate (some (c!"Feb xx yyyy")) = some (some { mon := 1, mday := 0, year := -1900 }) ∧
    convertTimeStamp (some (c!"Fri Dec")) = none := by decide

/-- C180: what is refused: a null pointer, a text that is too long, and one whose month field is not found among the names. -/
theorem C180_refused (s : Str) :
    convertDate none = some none ∧ convertTimeStamp none = some none ∧ (11 < s.length → convertDate (some s) = some none) ∧
      (26 < s.length → convertTimeStamp (some s) = some none) := by
  refine ⟨rfl, rfl, ?_, ?_⟩
  · intro h; simp [convertDate, h]
  · intro h; simp [convertTimeStamp, h]

example : convertDate (some (c!"Dec 19 2003")) = some (some { mon := 11, mday := 19, year := 103 }) := by decide
example : convertTimeStamp (some (c!"Fri Dec  9 14:34:58 2003")) = some (some { mon := 11, mday := 9, year := 103, hour := 14, min := 34, sec := 58 }) := by decide
example : IsTwo (c!" 9") 9 := .inr ⟨9, by decide, by decide⟩
example : IsFour (c!"2003") 2003 := ⟨2, 0, 0, 3, by decide, by decide⟩

end Vital.Formats
