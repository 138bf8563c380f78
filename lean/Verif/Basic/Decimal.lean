import Verif.Basic.Str
/-
  Decimal text of integers, as written by `ostream << int` and read by `istream >> int`
  ("C" locale, default flags: base 10, skipws, no showpos).
-/
namespace Vital

def isDigit (c : Char) : Bool := decide (48 ≤ c.toNat) && decide (c.toNat ≤ 57)

def digitChar (n : Nat) : Char := Char.ofNat (48 + n % 10)
def digitVal (c : Char) : Nat := c.toNat - 48

/-- Decimal digits; the first argument bounds the recursion. -/
def natStrF : Nat → Nat → Str
  | 0, _ => []
  | f + 1, n => if n < 10 then [digitChar n] else natStrF f (n / 10) ++ [digitChar n]

-- models: std::num_put for unsigned values, used by `ostream << n`
def natStr (n : Nat) : Str := natStrF (n + 1) n

-- models: std::num_put for signed values, used by `ostream << n`
def intStr (n : Int) : Str := if n < 0 then '-' :: natStr n.natAbs else natStr n.natAbs

def digitsVal (ds : Str) : Nat := ds.foldl (fun a c => 10 * a + digitVal c) 0

/-- Split off an optional sign: `true` for minus. -/
def splitSign : Str → Bool × Str
  | '-' :: s => (true, s)
  | '+' :: s => (false, s)
  | s => (false, s)

-- models: std::num_get for signed integers with range lo..hi, used by `istream >> n` (skips white
-- space, optional sign, maximal run of digits, failbit if none or out of range); also returns the
-- unread rest
def readInt (lo hi : Int) (s : Str) : Option (Int × Str) :=
  let (neg, t) := splitSign (ltrim s)
  let ds := t.takeWhile isDigit
  if ds = [] then none
  else
    let v : Int := if neg then -(digitsVal ds : Int) else (digitsVal ds : Int)
    if lo ≤ v ∧ v ≤ hi then some (v, t.dropWhile isDigit) else none

/-! ### Specification and lemmas -/

theorem digitChar_toNat (n : Nat) : (digitChar n).toNat = 48 + n % 10 := by
  unfold digitChar
  have h : n % 10 < 10 := Nat.mod_lt _ (by omega)
  generalize n % 10 = m at h
  have : ∀ m : Fin 10, (Char.ofNat (48 + m.val)).toNat = 48 + m.val := by decide +kernel
  exact this ⟨m, h⟩

theorem digitVal_digitChar (n : Nat) : digitVal (digitChar n) = n % 10 := by
  unfold digitVal; rw [digitChar_toNat]; omega

theorem isDigit_digitChar (n : Nat) : isDigit (digitChar n) = true := by
  unfold isDigit; rw [digitChar_toNat]
  simp; omega

theorem digitsVal_append (a : Str) (c : Char) : digitsVal (a ++ [c]) = 10 * digitsVal a + digitVal c := by
  simp [digitsVal]

theorem natStrF_spec (f n : Nat) (h : n < f) :
    digitsVal (natStrF f n) = n ∧ (∀ c ∈ natStrF f n, isDigit c = true) ∧ natStrF f n ≠ [] := by
  induction f generalizing n with
  | zero => omega
  | succ f ih =>
    unfold natStrF
    split
    · rename_i hn
      refine ⟨?_, ?_, by simp⟩
      · simp [digitsVal, digitVal_digitChar]; omega
      · intro c hc; simp at hc; subst hc; exact isDigit_digitChar n
    · rename_i hn
      obtain ⟨h1, h2, h3⟩ := ih (n / 10) (by omega)
      refine ⟨?_, ?_, by simp⟩
      · rw [digitsVal_append, h1, digitVal_digitChar]; omega
      · intro c hc
        rcases List.mem_append.1 hc with hc | hc
        · exact h2 c hc
        · simp at hc; subst hc; exact isDigit_digitChar n

theorem natStr_val (n : Nat) : digitsVal (natStr n) = n := (natStrF_spec _ _ (by omega)).1
theorem natStr_digits (n : Nat) : ∀ c ∈ natStr n, isDigit c = true := (natStrF_spec _ _ (by omega)).2.1
theorem natStr_ne_nil (n : Nat) : natStr n ≠ [] := (natStrF_spec (n + 1) _ (by omega)).2.2

theorem natStr_inj {a b : Nat} (h : natStr a = natStr b) : a = b := by
  rw [← natStr_val a, ← natStr_val b, h]

theorem isDigit_not_space {c : Char} (h : isDigit c = true) : isSpace c = false := by
  unfold isDigit at h
  simp only [Bool.and_eq_true, decide_eq_true_eq] at h
  unfold isSpace
  have hne : ∀ d : Char, d.toNat < 48 → (c == d) = false := by
    intro d hd
    simp only [beq_eq_false_iff_ne, ne_eq]
    rintro rfl; omega
  rw [hne ' ' (by decide), hne '\t' (by decide), hne '\n' (by decide), hne '\x0b' (by decide),
    hne '\x0c' (by decide), hne '\r' (by decide)]
  rfl

theorem isDigit_not_sign {c : Char} (h : isDigit c = true) : c ≠ '-' ∧ c ≠ '+' := by
  constructor <;> (rintro rfl; revert h; decide)

theorem trimmed_of_no_space {s : Str} (h : ∀ c ∈ s, isSpace c = false) : Trimmed s := by
  constructor
  · intro c hc; exact h c (List.mem_of_mem_head? hc)
  · intro c hc; exact h c (List.mem_of_mem_getLast? hc)

theorem intStr_no_space (n : Int) : ∀ c ∈ intStr n, isSpace c = false := by
  intro c hc
  unfold intStr at hc
  split at hc
  · rcases List.mem_cons.1 hc with rfl | hc
    · decide
    · exact isDigit_not_space (natStr_digits _ c hc)
  · exact isDigit_not_space (natStr_digits _ c hc)

theorem intStr_trimmed (n : Int) : trim (intStr n) = intStr n :=
  trim_eq_self (trimmed_of_no_space (intStr_no_space n))

theorem takeWhile_all {p : Char → Bool} {s : Str} (h : ∀ c ∈ s, p c = true) (rest : Str)
    (hr : ∀ c, rest.head? = some c → p c = false) : (s ++ rest).takeWhile p = s ∧ (s ++ rest).dropWhile p = rest := by
  induction s with
  | nil =>
    cases rest with
    | nil => simp
    | cons a r =>
      have := hr a rfl
      simp [this]
  | cons a s ih =>
    have ha := h a (by simp)
    obtain ⟨h1, h2⟩ := ih (fun c hc => h c (by simp [hc]))
    simp [ha, h1, h2]

theorem splitSign_natStr (n : Nat) (rest : Str) : splitSign (natStr n ++ rest) = (false, natStr n ++ rest) := by
  have h0 := natStr_ne_nil n
  have h1 := natStr_digits n
  cases hs : natStr n with
  | nil => exact absurd hs h0
  | cons c s =>
    have := isDigit_not_sign (h1 c (by rw [hs]; simp))
    show splitSign (c :: (s ++ rest)) = _
    unfold splitSign
    split
    · rename_i e; injection e with e1; exact absurd e1 this.1
    · rename_i e; injection e with e1; exact absurd e1 this.2
    · rfl

/-- Reading back a written integer that is followed by a non-digit (or nothing). -/
theorem readInt_intStr (lo hi n : Int) (h1 : lo ≤ n) (h2 : n ≤ hi) (rest : Str)
    (hr : ∀ c, rest.head? = some c → isDigit c = false) (ws : Str) (hws : ∀ c ∈ ws, isSpace c = true) :
    readInt lo hi (ws ++ intStr n ++ rest) = some (n, rest) := by
  have hl : ltrim (ws ++ intStr n ++ rest) = intStr n ++ rest := by
    unfold ltrim
    rw [List.append_assoc]
    refine (takeWhile_all hws _ ?_).2
    intro c hc
    apply intStr_no_space n
    have hne : intStr n ≠ [] := by
      unfold intStr; split
      · simp
      · exact natStr_ne_nil _
    cases hs : intStr n with
    | nil => exact absurd hs hne
    | cons a s => rw [hs] at hc; simp at hc; simp [hc]
  have key := takeWhile_all (natStr_digits n.natAbs) rest hr
  unfold readInt
  rw [hl]
  unfold intStr
  by_cases hn : n < 0
  · rw [if_pos hn]
    simp only [List.cons_append, splitSign, key.1, key.2, natStr_ne_nil, ↓reduceIte, natStr_val]
    rw [show (-(n.natAbs : Int)) = n by omega, if_pos ⟨h1, h2⟩]
  · rw [if_neg hn, splitSign_natStr]
    simp only [key.1, key.2, natStr_ne_nil, ↓reduceIte, natStr_val, Bool.false_eq_true]
    rw [show ((n.natAbs : Int)) = n by omega, if_pos ⟨h1, h2⟩]

/-- A sign and the factor it stands for. -/
inductive SignOf : Str → Int → Prop where
  | plus : SignOf ['+'] 1
  | minus : SignOf ['-'] (-1)
  | none : SignOf [] 1

theorem takeWhile_mem {p : Char → Bool} {s : Str} : ∀ c ∈ s.takeWhile p, p c = true := by
  induction s with
  | nil => simp
  | cons a s ih =>
    intro c hc
    by_cases ha : p a
    · rw [List.takeWhile_cons_of_pos ha] at hc
      rcases List.mem_cons.1 hc with rfl | hc
      · exact ha
      · exact ih c hc
    · rw [List.takeWhile_cons_of_neg ha] at hc; simp at hc

/-- Exact description of what `istream >> n` accepts: blanks, optional sign, a maximal non-empty run
    of digits, value in range. -/
theorem readInt_iff (lo hi n : Int) (s rest : Str) :
    readInt lo hi s = some (n, rest) ↔
      ∃ ws sg ds f, s = ws ++ sg ++ ds ++ rest ∧ (∀ c ∈ ws, isSpace c = true) ∧ SignOf sg f ∧
        (∀ c ∈ ds, isDigit c = true) ∧ ds ≠ [] ∧ (∀ c, rest.head? = some c → isDigit c = false) ∧
        n = f * digitsVal ds ∧ lo ≤ n ∧ n ≤ hi := by
  constructor
  · intro h
    unfold readInt at h
    have hws : s = s.takeWhile isSpace ++ ltrim s := (List.takeWhile_append_dropWhile).symm
    generalize ltrim s = u at h hws
    have fin : ∀ (sg t : Str) (f : Int) (neg : Bool), SignOf sg f → u = sg ++ t →
        (f = if neg then -1 else 1) →
        (if t.takeWhile isDigit = [] then none else
          if lo ≤ (if neg then -(digitsVal (t.takeWhile isDigit) : Int) else (digitsVal (t.takeWhile isDigit) : Int)) ∧
             (if neg then -(digitsVal (t.takeWhile isDigit) : Int) else (digitsVal (t.takeWhile isDigit) : Int)) ≤ hi
          then some ((if neg then -(digitsVal (t.takeWhile isDigit) : Int) else (digitsVal (t.takeWhile isDigit) : Int)),
            t.dropWhile isDigit) else none) = some (n, rest) →
        ∃ ws sg ds f, s = ws ++ sg ++ ds ++ rest ∧ (∀ c ∈ ws, isSpace c = true) ∧ SignOf sg f ∧
        (∀ c ∈ ds, isDigit c = true) ∧ ds ≠ [] ∧ (∀ c, rest.head? = some c → isDigit c = false) ∧
        n = f * digitsVal ds ∧ lo ≤ n ∧ n ≤ hi := by
      intro sg t f neg hsg hu hf h
      generalize hv : (if neg then -(digitsVal (t.takeWhile isDigit) : Int) else (digitsVal (t.takeWhile isDigit) : Int)) = x at h
      split at h
      · cases h
      · rename_i hne
        split at h
        · rename_i hr
          simp only [Option.some.injEq, Prod.mk.injEq] at h
          obtain ⟨h1, h2⟩ := h
          refine ⟨s.takeWhile isSpace, sg, t.takeWhile isDigit, f, ?_, takeWhile_mem, hsg, takeWhile_mem, hne,
            ?_, ?_, ?_⟩
          · rw [← h2]
            conv => lhs; rw [hws, hu]
            simp
          · rw [← h2]; exact dropWhile_head_false _ _
          · rw [← h1, hf, ← hv]; cases neg <;> simp
          · rw [← h1]; exact hr
        · cases h
    unfold splitSign at h
    split at h
    · rename_i heq
      split at heq
      · cases heq; exact fin ['-'] _ (-1) true .minus rfl rfl h
      · cases heq; exact fin ['+'] _ 1 false .plus rfl rfl h
      · cases heq; exact fin [] _ 1 false .none rfl rfl h
  · rintro ⟨ws, sg, ds, f, rfl, hws, hsg, hds, hne, hrest, hn, hlo, hhi⟩
    have key := takeWhile_all hds rest hrest
    obtain ⟨d0, ds', rfl⟩ : ∃ d0 ds', ds = d0 :: ds' := by
      cases ds with
      | nil => exact absurd rfl hne
      | cons a b => exact ⟨a, b, rfl⟩
    have hd0 := hds d0 (by simp)
    have hl : ltrim (ws ++ sg ++ (d0 :: ds') ++ rest) = sg ++ ((d0 :: ds') ++ rest) := by
      unfold ltrim
      rw [List.append_assoc, List.append_assoc]
      refine (takeWhile_all hws _ ?_).2
      intro c hc
      cases hsg with
      | plus => simp at hc; subst hc; decide
      | minus => simp at hc; subst hc; decide
      | none => simp at hc; subst hc; exact isDigit_not_space hd0
    unfold readInt
    rw [hl]
    cases hsg with
    | plus =>
      simp only [List.cons_append, List.nil_append, splitSign]
      rw [← List.cons_append]
      simp only [key.1, key.2, hne, ↓reduceIte, Bool.false_eq_true]
      rw [show ((digitsVal (d0 :: ds') : Nat) : Int) = n by rw [hn]; simp, if_pos ⟨hlo, hhi⟩]
    | minus =>
      simp only [List.cons_append, List.nil_append, splitSign]
      rw [← List.cons_append]
      simp only [key.1, key.2, hne, ↓reduceIte]
      rw [show -((digitsVal (d0 :: ds') : Nat) : Int) = n by rw [hn]; simp, if_pos ⟨hlo, hhi⟩]
    | none =>
      have hss : splitSign ([] ++ (d0 :: ds' ++ rest)) = (false, d0 :: ds' ++ rest) := by
        have := isDigit_not_sign hd0
        show splitSign (d0 :: (ds' ++ rest)) = _
        unfold splitSign
        split
        · rename_i e; injection e with e1; exact absurd e1 this.1
        · rename_i e; injection e with e1; exact absurd e1 this.2
        · rfl
      rw [hss]
      simp only [key.1, key.2, hne, ↓reduceIte, Bool.false_eq_true]
      rw [show ((digitsVal (d0 :: ds') : Nat) : Int) = n by rw [hn]; simp, if_pos ⟨hlo, hhi⟩]

end Vital
