import Verif.Basic.Decimal
/-
  SystemTools::GetTerminalWidth (vital/kwiversys/SystemTools.cxx:4724-4754); property C265.
-/
namespace Vital.Sys.Term
open Vital

-- models: strtol: the value of a digit in any base up to 16, 99 for other characters
def digit16 (c : Char) : Nat :=
  if isDigit c = true then c.toNat - 48
  else if 97 ≤ c.toNat ∧ c.toNat ≤ 102 then c.toNat - 87
  else if 65 ≤ c.toNat ∧ c.toNat ≤ 70 then c.toNat - 55
  else 99

def isDigitOf (base : Nat) (c : Char) : Bool := decide (digit16 c < base)

def valueOf (base : Nat) (ds : Str) : Nat := ds.foldl (fun a c => base * a + digit16 c) 0

-- models: strtol with base 0 once the sign is off: 0x and a hexadecimal digit, 0, or decimal; the digits and what follows them
def body (s : Str) : Nat × Str × Str :=
  match s with
  | '0' :: 'x' :: d :: rest => if isDigitOf 16 d = true then (16, (d :: rest).takeWhile (isDigitOf 16), (d :: rest).dropWhile (isDigitOf 16))
      else (8, s.takeWhile (isDigitOf 8), s.dropWhile (isDigitOf 8))
  | '0' :: 'X' :: d :: rest => if isDigitOf 16 d = true then (16, (d :: rest).takeWhile (isDigitOf 16), (d :: rest).dropWhile (isDigitOf 16))
      else (8, s.takeWhile (isDigitOf 8), s.dropWhile (isDigitOf 8))
  | '0' :: _ => (8, s.takeWhile (isDigitOf 8), s.dropWhile (isDigitOf 8))
  | _ => (10, s.takeWhile (isDigitOf 10), s.dropWhile (isDigitOf 10))

-- models: strtol(s, &end, 0) with a long of 64 bits: the value, limited to the range, and what end points to (all of s if there is no digit)
def strtol0 (s : Str) : Int × Str :=
  let sg := splitSign (ltrim s)
  let b := body sg.2
  if b.2.1 = [] then (0, s)
  else (if sg.1 = true then max (-(valueOf b.1 b.2.1 : Int)) (-(2 ^ 63)) else min (valueOf b.1 b.2.1 : Int) (2 ^ 63 - 1), b.2.2)

/-- What the system says: the size of the terminal at descriptor 1 (columns and rows, if there is one), whether standard output is a terminal, the
environment variable COLUMNS. -/
structure Env where
  size : Option (Nat × Nat)
  tty : Bool
  columns : Option Str

-- models: vital/kwiversys/SystemTools.cxx:4724-4754 (GetTerminalWidth)
def width (e : Env) : Int :=
  let w0 : Int := match e.size with
    | some (c, r) => if 0 < c ∧ 0 < r then (c : Int) else -1
    | none => -1
  let w1 : Int := if e.tty = true then w0 else -1
  let w2 : Int := match e.columns with
    | some (a :: s) => let t := strtol0 (a :: s); if t.2 = [] ∧ 0 < t.1 ∧ t.1 < 1000 then t.1 else w1
    | _ => w1
  if w2 < 9 then -1 else w2

/-! ### Specification -/

/-- The width of the terminal, as the system has it: at least 9, or none. -/
def OfTerminal (e : Env) (w : Int) : Prop :=
  (∃ c r, e.size = some (c, r) ∧ 0 < r ∧ 9 ≤ c ∧ e.tty = true ∧ w = c) ∨
  (w = -1 ∧ ¬ ∃ c r, e.size = some (c, r) ∧ 0 < r ∧ 9 ≤ c ∧ e.tty = true)

/-- A number in decimal digits. -/
def Decimal (s : Str) : Prop := s ≠ [] ∧ ∀ c ∈ s, isDigit c = true

/-- The full statement: a decimal number from 9 to 999 in COLUMNS is the width. -/
def C265_statement : Prop := ∀ (e : Env) (s : Str), e.columns = some s → Decimal s → 9 ≤ digitsVal s → digitsVal s < 1000 → width e = digitsVal s

/-- **C265** (refuted): 0100 is 64, being read as octal. -/
theorem C265_refuted : ¬ C265_statement := by
  intro h
  have := h ⟨none, false, some (c!"0100")⟩ (c!"0100") rfl (by unfold Decimal; decide) (by decide) (by decide)
  revert this
  decide +kernel

theorem digit16_of_digit {c : Char} (h : isDigit c = true) : digit16 c = digitVal c ∧ digit16 c < 10 := by
  have h' := h
  simp only [isDigit, Bool.and_eq_true, decide_eq_true_eq] at h'
  simp only [digit16, h, if_true, digitVal]
  exact ⟨trivial, by omega⟩

theorem digit10_iff (c : Char) : isDigitOf 10 c = true ↔ isDigit c = true := by
  constructor
  · intro h
    have h' : digit16 c < 10 := of_decide_eq_true h
    by_cases hd : isDigit c = true
    · exact hd
    · exfalso
      unfold digit16 at h'
      rw [if_neg hd] at h'
      split at h'
      · omega
      · split at h' <;> omega
  · intro h
    simp only [isDigitOf, decide_eq_true_eq]
    exact (digit16_of_digit h).2

theorem value10 (s : Str) (hs : ∀ c ∈ s, isDigit c = true) : valueOf 10 s = digitsVal s := by
  have key : ∀ (s : Str) (a : Nat), (∀ c ∈ s, isDigit c = true) →
      s.foldl (fun a c => 10 * a + digit16 c) a = s.foldl (fun a c => 10 * a + digitVal c) a := by
    intro s
    induction s with
    | nil => intro a _; rfl
    | cons c s ih =>
      intro a h
      simp only [List.foldl_cons]
      rw [(digit16_of_digit (h c List.mem_cons_self)).1]
      exact ih _ (fun d hd => h d (List.mem_cons_of_mem _ hd))
  exact key s 0 hs

theorem takeWhile_all' {p : Char → Bool} {s : Str} (h : ∀ c ∈ s, p c = true) : s.takeWhile p = s ∧ s.dropWhile p = [] := by
  induction s with
  | nil => exact ⟨rfl, rfl⟩
  | cons c s ih =>
    have hc := h c List.mem_cons_self
    obtain ⟨h1, h2⟩ := ih (fun d hd => h d (List.mem_cons_of_mem _ hd))
    simp [hc, h1, h2]

/-- Decimal digits that do not start with 0 are read as the number they are. -/
theorem strtol0_decimal (s : Str) (hs : Decimal s) (h0 : s.head? ≠ some '0') (hr : digitsVal s < 1000) : strtol0 s = ((digitsVal s : Int), []) := by
  obtain ⟨hne, hd⟩ := hs
  cases s with
  | nil => exact absurd rfl hne
  | cons a s =>
    have ha := hd a List.mem_cons_self
    have h1 : ltrim (a :: s) = a :: s := by
      simp [ltrim, isDigit_not_space ha]
    have h2 : splitSign (a :: s) = (false, a :: s) := by
      have := isDigit_not_sign ha
      unfold splitSign
      split
      · rename_i e; cases e; exact absurd rfl this.1
      · rename_i e; cases e; exact absurd rfl this.2
      · rfl
    have hall : ∀ c ∈ a :: s, isDigitOf 10 c = true := fun c hc => (digit10_iff c).2 (hd c hc)
    have h3 : body (a :: s) = (10, a :: s, []) := by
      have ha0 : a ≠ '0' := fun e => h0 (by rw [e]; rfl)
      unfold body
      split
      · rename_i e; cases e; exact absurd rfl ha0
      · rename_i e; cases e; exact absurd rfl ha0
      · rename_i e; cases e; exact absurd rfl ha0
      · rw [(takeWhile_all' hall).1, (takeWhile_all' hall).2]
    have hv := value10 (a :: s) hd
    simp only [strtol0, h1, h2, h3]
    rw [if_neg (by simp), hv]
    simp only [Bool.false_eq_true, if_false]
    rw [Int.min_eq_left (by omega)]

/-- **C265** (what holds): a decimal number from 9 to 999 that does not start with 0 is the width, whatever the terminal is. -/
theorem C265_columns_partial (e : Env) (s : Str) (hc : e.columns = some s) (hs : Decimal s) (h0 : s.head? ≠ some '0') (h1 : 9 ≤ digitsVal s)
    (h2 : digitsVal s < 1000) : width e = digitsVal s := by
  have h := strtol0_decimal s hs h0 h2
  obtain ⟨hne, _⟩ := hs
  cases s with
  | nil => exact absurd rfl hne
  | cons a s =>
    simp only [width, hc, h]
    have hp : (True ∧ (0 : Int) < (digitsVal (a :: s) : Int) ∧ (digitsVal (a :: s) : Int) < 1000) := ⟨trivial, by omega, by omega⟩
    rw [if_pos hp, if_neg (by omega)]

/-- **C265** (the terminal): when COLUMNS is not set, is empty, is not a number or is out of range, the width is that of the terminal. -/
theorem C265_terminal (e : Env) (h : ∀ s, e.columns = some s → s = [] ∨ (strtol0 s).2 ≠ [] ∨ (strtol0 s).1 ≤ 0 ∨ 1000 ≤ (strtol0 s).1) :
    OfTerminal e (width e) := by
  have key : width e = (if (if e.tty = true then (match e.size with
      | some (c, r) => if 0 < c ∧ 0 < r then (c : Int) else -1
      | none => -1) else -1) < 9 then -1 else (if e.tty = true then (match e.size with
      | some (c, r) => if 0 < c ∧ 0 < r then (c : Int) else -1
      | none => -1) else -1)) := by
    unfold width
    cases hc : e.columns with
    | none => rfl
    | some s =>
      cases s with
      | nil => rfl
      | cons a s =>
        have := h _ hc
        have hn : ¬ ((strtol0 (a :: s)).2 = [] ∧ 0 < (strtol0 (a :: s)).1 ∧ (strtol0 (a :: s)).1 < 1000) := by
          rintro ⟨h1, h2, h3⟩
          rcases this with h | h | h | h
          · cases h
          · exact h h1
          · omega
          · omega
        simp only [if_neg hn]
  rw [key]
  cases ht : e.tty with
  | false => exact Or.inr ⟨rfl, by rintro ⟨_, _, _, _, _, h⟩; exact absurd (ht.symm.trans h) (by decide)⟩
  | true =>
    cases hz : e.size with
    | none => exact Or.inr ⟨rfl, by rintro ⟨_, _, h, _⟩; exact absurd (hz.symm.trans h) (by simp)⟩
    | some p =>
      obtain ⟨c, r⟩ := p
      simp only [if_true]
      by_cases hcr : 0 < r ∧ 9 ≤ c
      · refine Or.inl ⟨c, r, hz, hcr.1, hcr.2, ht, ?_⟩
        rw [if_pos (⟨by omega, hcr.1⟩ : 0 < c ∧ 0 < r), if_neg (by omega)]
      · refine Or.inr ⟨?_, ?_⟩
        · by_cases h1 : 0 < c ∧ 0 < r
          · rw [if_pos h1, if_pos (by omega)]
          · rw [if_neg h1]; rfl
        · rintro ⟨c', r', h, h1, h2, _⟩
          have e1 := hz.symm.trans h
          simp only [Option.some.injEq, Prod.mk.injEq] at e1
          exact hcr ⟨by omega, by omega⟩

/-- **C265** (range): the answer is -1 or at least 9. -/
theorem C265_range (e : Env) : width e = -1 ∨ 9 ≤ width e := by
  have key : ∀ x : Int, (if x < 9 then (-1 : Int) else x) = -1 ∨ 9 ≤ (if x < 9 then (-1 : Int) else x) := by
    intro x
    by_cases h : x < 9
    · exact Or.inl (if_pos h)
    · right; rw [if_neg h]; omega
  exact key _

example : width ⟨some (120, 40), true, some (c!"80")⟩ = 80 ∧ width ⟨some (120, 40), true, some (c!"80x")⟩ = 120 ∧
    width ⟨some (120, 40), true, some (c!"8")⟩ = -1 ∧ width ⟨none, false, some (c!"0x50")⟩ = 80 ∧ width ⟨some (120, 40), true, some (c!"080")⟩ = 120 := by
  decide +kernel

end Vital.Sys.Term
