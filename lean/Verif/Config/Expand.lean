import Verif.Basic.Str
/-
  Model of vital/config/token_expander.cxx and vital/config/token_type_symtab.cxx.

  The regular expression of `expand_token` is modelled here by a direct scanner written from the
  pattern's text (`Verif/Regex/Link.lean` proves that the compiled pattern agrees with it, C123).
  Strings are taken to contain no NUL character.
-/
namespace Vital.Expand
open Vital

def isAlpha (c : Char) : Bool := ('a' ≤ c && c ≤ 'z') || ('A' ≤ c && c ≤ 'Z')
def isDigit (c : Char) : Bool := '0' ≤ c && c ≤ '9'
/-- `[a-zA-Z0-9_]` -/
def isIdent (c : Char) : Bool := isAlpha c || isDigit c || c == '_'
/-- `[a-zA-Z0-9._:]` -/
def isName (c : Char) : Bool := isAlpha c || isDigit c || c == '.' || c == '_' || c == ':'

/-- Match `\$([a-zA-Z][a-zA-Z0-9_]*)\{([a-zA-Z0-9._:]+)?\}` at the start of the string: group 1, group 2,
    remaining text. -/
-- models: vital/config/token_expander.cxx:88 (the pattern), vital/kwiversys/RegularExpression.cxx (regtry)
def scanToken : Str → Option (Str × Str × Str)
  | '$' :: a :: r =>
    if isAlpha a then
      match r.dropWhile isIdent with
      | '{' :: r2 =>
        match r2.dropWhile isName with
        | '}' :: rest => some (a :: r.takeWhile isIdent, r2.takeWhile isName, rest)
        | _ => none
      | _ => none
    else none
  | _ => none

/-- `exp.find( working_str )`: leftmost match; text before it, type, name, text after it. -/
def findToken : Str → Option (Str × Str × Str × Str)
  | [] => none
  | a :: s =>
    match scanToken (a :: s) with
    | some (ty, nm, rest) => some ([], ty, nm, rest)
    | none =>
      match findToken s with
      | some (pre, ty, nm, rest) => some (a :: pre, ty, nm, rest)
      | none => none

/-- `m_typeList`: registered token types with their `lookup_entry`. -/
-- models: vital/config/token_expander.h (m_typeList), vital/config/token_type.h:95 (lookup_entry)
abbrev Types := OMap Str (Str → Option Str)

-- models: vital/config/token_expander.cxx:62-70 (add_token_type)
def addTokenType (t : Types) (name : Str) (lookup : Str → Option Str) : Types := t.insert name lookup

/-- The loop of `expand_token`; the first argument bounds the number of matches. -/
-- models: vital/config/token_expander.cxx:85-136 (expand_token); lookup_entry leaves `result` empty on
-- failure (token_type_symtab.cxx:76-88, token_type_env.cxx:54-72, token_type_config.cxx:52-72,
-- token_type_sysenv.cxx: no assignment)
def expandF : Nat → Types → Str → Str
  | 0, _, s => s
  | n + 1, t, s =>
    match findToken s with
    | none => s
    | some (pre, ty, nm, rest) =>
      match t.find? ty with
      | some lookup => pre ++ (lookup nm).getD [] ++ expandF n t rest
      | none => pre ++ (c!"$" ++ ty ++ c!"{" ++ nm ++ c!"}") ++ expandF n t rest

/-- `expand_token( s )`. -/
def expandToken (t : Types) (s : Str) : Str := expandF s.length t s

/-! ### Specification -/

/-- The letters a type begins with, the characters it goes on with, the characters of a name. -/
def letters : Str := c!"abcdefghijklmnopqrstuvwxyzABCDEFGHIJKLMNOPQRSTUVWXYZ"
def typeChars : Str := letters ++ c!"0123456789_"
def nameChars : Str := letters ++ c!"0123456789._:"

/-- `t` is the text of a token `$TYPE{name}`. -/
def IsToken (t ty nm : Str) : Prop :=
  t = c!"$" ++ ty ++ c!"{" ++ nm ++ c!"}" ∧
  (∃ a r, ty = a :: r ∧ a ∈ letters ∧ ∀ c ∈ r, c ∈ typeChars) ∧ ∀ c ∈ nm, c ∈ nameChars

theorem ofNat_toNat' (c : Char) : Char.ofNat c.toNat = c := Char.ofNat_toNat c

/-- A predicate that fails outside ASCII is determined by its values there. -/
theorem ascii_ext {p : Char → Bool} {l : Str} (h1 : ∀ c, p c = true → c.toNat < 128)
    (h2 : ∀ c ∈ l, c.toNat < 128)
    (h3 : ∀ n : Fin 128, p (Char.ofNat n.val) = true ↔ Char.ofNat n.val ∈ l) (c : Char) :
    p c = true ↔ c ∈ l := by
  by_cases hc : c.toNat < 128
  · have := h3 ⟨c.toNat, hc⟩
    rwa [ofNat_toNat'] at this
  · constructor
    · intro h; exact absurd (h1 c h) hc
    · intro h; exact absurd (h2 c h) hc

theorem alpha_lt {c : Char} (h : isAlpha c = true) : c.toNat < 128 := by
  simp only [isAlpha, Bool.or_eq_true, Bool.and_eq_true, decide_eq_true_eq, Char.le_def, UInt32.le_iff_toNat_le] at h
  have e : c.toNat = c.val.toNat := rfl
  rw [e]
  rcases h with ⟨_, h⟩ | ⟨_, h⟩
  · have : ('z' : Char).val.toNat = 122 := rfl
    omega
  · have : ('Z' : Char).val.toNat = 90 := rfl
    omega

theorem digit_lt {c : Char} (h : isDigit c = true) : c.toNat < 128 := by
  simp only [isDigit, Bool.and_eq_true, decide_eq_true_eq, Char.le_def, UInt32.le_iff_toNat_le] at h
  have e : c.toNat = c.val.toNat := rfl
  have : ('9' : Char).val.toNat = 57 := rfl
  omega

theorem isAlpha_iff (c : Char) : isAlpha c = true ↔ c ∈ letters :=
  ascii_ext (fun _ => alpha_lt) (by decide +kernel) (by decide +kernel) c

theorem isIdent_iff (c : Char) : isIdent c = true ↔ c ∈ typeChars :=
  ascii_ext (fun c h => by
    simp only [isIdent, Bool.or_eq_true, beq_iff_eq] at h
    rcases h with (h | h) | rfl
    · exact alpha_lt h
    · exact digit_lt h
    · decide) (by decide +kernel) (by decide +kernel) c

theorem isName_iff (c : Char) : isName c = true ↔ c ∈ nameChars :=
  ascii_ext (fun c h => by
    simp only [isName, Bool.or_eq_true, beq_iff_eq] at h
    rcases h with (((h | h) | rfl) | rfl) | rfl
    · exact alpha_lt h
    · exact digit_lt h
    · decide
    · decide
    · decide) (by decide +kernel) (by decide +kernel) c

/-- The same in terms of the scanner's character tests. -/
theorem isToken_iff (t ty nm : Str) : IsToken t ty nm ↔
    t = c!"$" ++ ty ++ c!"{" ++ nm ++ c!"}" ∧
    (∃ a r, ty = a :: r ∧ isAlpha a = true ∧ ∀ c ∈ r, isIdent c = true) ∧ ∀ c ∈ nm, isName c = true := by
  simp only [IsToken, isAlpha_iff, isIdent_iff, isName_iff]

/-- What a token stands for: itself when its type is not registered, else the text looked up, nothing
    when the name is unknown. -/
def meaning (T : Types) (t ty nm : Str) : Str :=
  match T.find? ty with
  | none => t
  | some lookup => match lookup nm with | some v => v | none => []

/-- One left-to-right pass: a token at the current position is replaced and skipped, any other character
    is copied. -/
inductive Expands (T : Types) : Str → Str → Prop where
  | nil : Expands T [] []
  | tok {t ty nm rest out} : IsToken t ty nm → Expands T rest out →
      Expands T (t ++ rest) (meaning T t ty nm ++ out)
  | char {c s out} : (∀ t ty nm rest, IsToken t ty nm → c :: s ≠ t ++ rest) → Expands T s out →
      Expands T (c :: s) (c :: out)

/-! ### Scanner lemmas -/

theorem takeWhile_append_stop {p : Char → Bool} {l : Str} {c : Char} {r : Str} (h : ∀ x ∈ l, p x = true)
    (hc : p c = false) : (l ++ c :: r).takeWhile p = l ∧ (l ++ c :: r).dropWhile p = c :: r := by
  induction l with
  | nil => simp [hc]
  | cons a l ih =>
    have ha := h a (by simp)
    have := ih (fun x hx => h x (by simp [hx]))
    simp [ha, this]

theorem takeWhile_all (p : Char → Bool) (l : Str) : ∀ x ∈ l.takeWhile p, p x = true := by
  induction l with
  | nil => simp
  | cons a l ih =>
    by_cases h : p a = true
    · rw [List.takeWhile_cons_of_pos h]
      intro x hx
      rcases List.mem_cons.1 hx with rfl | hx
      · exact h
      · exact ih x hx
    · rw [List.takeWhile_cons_of_neg h]; simp

theorem scan_complete {t ty nm : Str} (h : IsToken t ty nm) (rest : Str) :
    scanToken (t ++ rest) = some (ty, nm, rest) := by
  obtain ⟨rfl, ⟨a, r, rfl, ha, hr⟩, hn⟩ := (isToken_iff _ _ _).1 h
  have e : (c!"$" ++ (a :: r) ++ c!"{" ++ nm ++ c!"}") ++ rest = '$' :: a :: (r ++ '{' :: (nm ++ '}' :: rest)) := by
    simp
  rw [e]
  obtain ⟨h1, h2⟩ := takeWhile_append_stop (r := nm ++ '}' :: rest) hr (show isIdent '{' = false by decide)
  obtain ⟨h3, h4⟩ := takeWhile_append_stop (r := rest) hn (show isName '}' = false by decide)
  simp only [scanToken, ha, if_true, h1, h2, h3, h4]

theorem scan_sound {s ty nm rest : Str} (h : scanToken s = some (ty, nm, rest)) :
    IsToken (c!"$" ++ ty ++ c!"{" ++ nm ++ c!"}") ty nm ∧
    s = (c!"$" ++ ty ++ c!"{" ++ nm ++ c!"}") ++ rest := by
  unfold scanToken at h
  split at h
  · rename_i a r
    split at h
    · rename_i ha
      split at h
      · rename_i r2 h2
        split at h
        · rename_i rest' h3
          cases h
          have e1 := (List.takeWhile_append_dropWhile (p := isIdent) (l := r)).symm
          have e2 := (List.takeWhile_append_dropWhile (p := isName) (l := r2)).symm
          rw [h2] at e1; rw [h3] at e2
          refine ⟨(isToken_iff _ _ _).2 ⟨rfl, ⟨a, _, rfl, ha, takeWhile_all _ _⟩, takeWhile_all _ _⟩, ?_⟩
          conv => lhs; rw [e1, e2]
          simp
        · simp at h
      · simp at h
    · simp at h
  · simp at h

theorem scan_none {s : Str} (h : scanToken s = none) : ∀ t ty nm rest, IsToken t ty nm → s ≠ t ++ rest := by
  rintro t ty nm rest ht rfl
  rw [scan_complete ht] at h; simp at h

theorem find_none {s : Str} (h : findToken s = none) (T : Types) : Expands T s s := by
  induction s with
  | nil => exact .nil
  | cons a s ih =>
    unfold findToken at h
    split at h
    · simp at h
    · rename_i hs
      split at h
      · simp at h
      · rename_i hf
        exact .char (scan_none hs) (ih hf)

theorem find_some {s pre ty nm rest : Str} (h : findToken s = some (pre, ty, nm, rest)) :
    IsToken (c!"$" ++ ty ++ c!"{" ++ nm ++ c!"}") ty nm ∧
    s = pre ++ ((c!"$" ++ ty ++ c!"{" ++ nm ++ c!"}") ++ rest) ∧
    ∀ T out, Expands T rest out →
      Expands T s (pre ++ (meaning T (c!"$" ++ ty ++ c!"{" ++ nm ++ c!"}") ty nm ++ out)) := by
  induction s generalizing pre with
  | nil => simp [findToken] at h
  | cons a s ih =>
    unfold findToken at h
    split at h
    · rename_i ty' nm' rest' hs
      cases h
      obtain ⟨h1, h2⟩ := scan_sound hs
      refine ⟨h1, h2, ?_⟩
      intro T out ho
      rw [h2]
      exact .tok h1 ho
    · rename_i hs
      split at h
      · rename_i pre' ty' nm' rest' hf
        cases h
        obtain ⟨h1, h2, h3⟩ := ih hf
        refine ⟨h1, by rw [h2]; rfl, ?_⟩
        intro T out ho
        exact .char (scan_none hs) (h3 T out ho)
      · simp at h

theorem expandF_spec (T : Types) : ∀ (n : Nat) (s : Str), s.length ≤ n → Expands T s (expandF n T s) := by
  intro n
  induction n with
  | zero =>
    intro s hs
    have : s = [] := List.length_eq_zero_iff.1 (by omega)
    subst this; exact .nil
  | succ n ih =>
    intro s hs
    unfold expandF
    split
    · rename_i h; exact find_none h T
    · rename_i pre ty nm rest h
      obtain ⟨h1, h2, h3⟩ := find_some h
      have hl : rest.length ≤ n := by
        have := congrArg List.length h2
        simp at this; omega
      have := h3 T _ (ih rest hl)
      have e : ∀ l : Option Str, (match l with | some v => v | none => []) = l.getD [] := by
        intro l; cases l <;> rfl
      cases hT : T.find? ty with
      | none => simpa [meaning, hT, List.append_assoc] using this
      | some f => simpa [meaning, hT, List.append_assoc, e] using this

theorem isToken_unique {t t' ty ty' nm nm' r r' : Str} (h : IsToken t ty nm) (h' : IsToken t' ty' nm')
    (e : t ++ r = t' ++ r') : t = t' ∧ ty = ty' ∧ nm = nm' ∧ r = r' := by
  have h1 := scan_complete h r
  rw [e, scan_complete h' r'] at h1
  cases h1
  exact ⟨by rw [h.1, h'.1], rfl, rfl, rfl⟩

theorem expands_det {T : Types} {s a b : Str} (h : Expands T s a) (h' : Expands T s b) : a = b := by
  induction h generalizing b with
  | nil =>
    generalize es : ([] : Str) = s' at h'
    cases h' with
    | nil => rfl
    | tok ht _ => rw [ht.1] at es; simp at es
    | char => simp at es
  | tok ht _ ih =>
    generalize es : (_ ++ _ : Str) = s' at h'
    cases h' with
    | nil => rw [ht.1] at es; simp at es
    | tok ht' h' =>
      obtain ⟨rfl, rfl, rfl, rfl⟩ := isToken_unique ht ht' es
      rw [ih h']
    | char hn _ => exact absurd es.symm (hn _ _ _ _ ht)
  | char hn _ ih =>
    generalize es : (_ :: _ : Str) = s' at h'
    cases h' with
    | nil => simp at es
    | tok ht' _ => exact absurd es (hn _ _ _ _ ht')
    | char _ h' => cases es; rw [ih h']

/-! ### C15–C17 -/

/-- The token types of the examples: LOCAL knows `a` and `b`. -/
def demoTypes : Types := addTokenType [] (c!"LOCAL")
  (fun n => if n = c!"a" then some (c!"$LOCAL{b}") else if n = c!"b" then some (c!"B") else none)

/-- C16: `expand_token` is exactly the left-to-right pass of the specification (in particular it returns
    for every string, and replacement text is not scanned again). -/
theorem C16_expand_is_one_pass (T : Types) (s out : Str) : expandToken T s = out ↔ Expands T s out := by
  have h := expandF_spec T s.length s (Nat.le_refl _)
  constructor
  · rintro rfl; exact h
  · intro h'; exact expands_det h h'

example : expandToken demoTypes (c!"x$LOCAL{a} $ENV{HOME} $$LOCAL{b}$LOCAL{zz}{") =
    c!"x$LOCAL{b} $ENV{HOME} $B{" := by decide +kernel

/-- C15: text without a token of a registered type is returned unchanged. -/
theorem C15_no_token_unchanged (T : Types) (s : Str)
    (h : ∀ pre t ty nm post, IsToken t ty nm → s = pre ++ t ++ post → T.find? ty = none) :
    expandToken T s = s := by
  rw [C16_expand_is_one_pass]
  have gen : ∀ (n : Nat) (s : Str), s.length ≤ n →
      (∀ pre t ty nm post, IsToken t ty nm → s = pre ++ t ++ post → T.find? ty = none) → Expands T s s := by
    intro n
    induction n with
    | zero => intro s hs _; rw [List.length_eq_zero_iff.1 (Nat.le_zero.1 hs)]; exact .nil
    | succ n ih =>
      intro s hs h
      cases hf : findToken s with
      | none => exact find_none hf T
      | some q =>
        obtain ⟨pre, ty, nm, rest⟩ := q
        obtain ⟨h1, h2, h3⟩ := find_some hf
        have hl : rest.length ≤ n := by
          have := congrArg List.length h2
          simp at this; omega
        have hr : Expands T rest rest := by
          apply ih rest hl
          intro pre' t' ty' nm' post' ht' e'
          refine h (pre ++ ((c!"$" ++ ty ++ c!"{" ++ nm ++ c!"}") ++ pre')) t' ty' nm' post' ht' ?_
          rw [h2, e']; simp
        have := h3 T rest hr
        have hn := h pre _ ty nm rest h1 (by rw [h2]; simp)
        rw [meaning, hn] at this
        rw [← h2] at this
        exact this
  exact gen s.length s (Nat.le_refl _) h

/-- A dollar sign ends every unfinished token before it. -/
theorem scan_before_dollar (p x : Str) :
    scanToken (p ++ '$' :: x) = match scanToken p with
      | some (ty, nm, rest) => some (ty, nm, rest ++ '$' :: x)
      | none => if p = [] then scanToken ('$' :: x) else none := by
  cases hp : scanToken p with
  | some q =>
    obtain ⟨ty, nm, rest⟩ := q
    obtain ⟨h1, h2⟩ := scan_sound hp
    rw [h2, List.append_assoc]
    exact scan_complete h1 _
  | none =>
    simp only
    split
    · rename_i e; rw [e]; rfl
    · rename_i hne
      cases hq : scanToken (p ++ '$' :: x) with
      | none => rfl
      | some q =>
        exfalso
        obtain ⟨ty, nm, rest⟩ := q
        obtain ⟨h1, h2⟩ := scan_sound hq
        -- the first character is a dollar sign and the token has no other
        have hd : ∀ c ∈ ty ++ c!"{" ++ nm ++ c!"}", c ≠ '$' := by
          obtain ⟨_, ⟨a, r, rfl, ha, hr⟩, hn⟩ := h1
          intro c hc
          rintro rfl
          simp only [List.mem_append, List.mem_cons, List.not_mem_nil, or_false] at hc
          rcases hc with ((hc | hc) | hc) | hc
          · rcases hc with rfl | hc
            · revert ha; decide
            · have := hr _ hc; revert this; decide
          · revert hc; decide
          · have := hn _ hc; revert this; decide
          · revert hc; decide
        cases p with
        | nil => exact hne rfl
        | cons a p =>
          have e : a :: (p ++ '$' :: x) = '$' :: ((ty ++ c!"{" ++ nm ++ c!"}") ++ rest) := by
            simpa [List.append_assoc] using h2
          injection e with e1 e2
          subst e1
          rcases List.append_eq_append_iff.1 e2 with ⟨as, h3, h4⟩ | ⟨bs, h3, h4⟩
          · cases as with
            | nil =>
              rw [List.append_nil] at h3
              have : scanToken (('$' :: p)) = some (ty, nm, []) := by
                have := scan_complete h1 []
                rw [List.append_nil] at this
                rw [← this, ← h3]
                simp [List.append_assoc]
              rw [this] at hp; simp at hp
            | cons c as =>
              have : '$' ∈ ty ++ c!"{" ++ nm ++ c!"}" := by
                rw [h3]; simp at h4; rw [← h4.1]; simp
              exact hd _ this rfl
          · have : scanToken (('$' :: p)) = some (ty, nm, bs) := by
              have := scan_complete h1 bs
              rw [← this, h3]
              simp [List.append_assoc]
            rw [this] at hp; simp at hp

theorem expands_before_dollar {T : Types} {p a : Str} (h : Expands T p a) {x b : Str}
    (hx : Expands T ('$' :: x) b) : Expands T (p ++ '$' :: x) (a ++ b) := by
  induction h with
  | nil => exact hx
  | tok ht _ ih => rw [List.append_assoc, List.append_assoc]; exact .tok ht ih
  | @char c s out hn _ ih =>
    refine .char ?_ ih
    intro t ty nm rest ht e
    have h1 := scan_complete ht rest
    have e' : c :: (s ++ '$' :: x) = t ++ rest := e
    rw [← e'] at h1
    have h2 := scan_before_dollar (c :: s) x
    have h3 : scanToken (c :: s) = none := by
      cases hq : scanToken (c :: s) with
      | none => rfl
      | some q =>
        obtain ⟨ty', nm', rest'⟩ := q
        obtain ⟨h4, h5⟩ := scan_sound hq
        exact absurd h5 (hn _ _ _ _ h4)
    rw [h3] at h2
    simp only [List.cons_append] at h2
    rw [h2] at h1
    simp at h1

/-- C17: every occurrence of a token, wherever it stands, is replaced by what it stands for (copied when
    the type is unregistered, removed when the name is unknown), independently of the text around it. -/
theorem C17_every_token (T : Types) {t ty nm : Str} (ht : IsToken t ty nm) (pre post : Str) :
    expandToken T (pre ++ t ++ post) = expandToken T pre ++ meaning T t ty nm ++ expandToken T post := by
  rw [C16_expand_is_one_pass]
  have h1 := (C16_expand_is_one_pass T pre _).1 rfl
  have h2 := (C16_expand_is_one_pass T post _).1 rfl
  obtain ⟨x, hx⟩ : ∃ x, t = '$' :: x := ⟨_, ht.1⟩
  have h3 := Expands.tok ht h2
  rw [hx, List.cons_append] at h3
  have := expands_before_dollar h1 h3
  rw [← List.cons_append, ← hx] at this
  simpa [List.append_assoc] using this

/-- C17, unknown types are kept. -/
theorem C17_unknown_type (T : Types) {t ty nm : Str} (ht : IsToken t ty nm) (hT : T.find? ty = none)
    (pre post : Str) : expandToken T (pre ++ t ++ post) = expandToken T pre ++ t ++ expandToken T post := by
  rw [C17_every_token T ht, meaning, hT]

/-- C17, unknown names vanish. -/
theorem C17_unknown_name (T : Types) {t ty nm : Str} (ht : IsToken t ty nm) {f : Str → Option Str}
    (hT : T.find? ty = some f) (hf : f nm = none) (pre post : Str) :
    expandToken T (pre ++ t ++ post) = expandToken T pre ++ expandToken T post := by
  rw [C17_every_token T ht, meaning, hT]
  simp [hf]

example : IsToken (c!"$ENV{HOME}") (c!"ENV") (c!"HOME") ∧ demoTypes.find? (c!"ENV") = none := by
  refine ⟨⟨rfl, ⟨'E', c!"NV", rfl, by decide, by decide⟩, by decide⟩, rfl⟩

example : IsToken (c!"$LOCAL{}") (c!"LOCAL") [] ∧ (∃ f, demoTypes.find? (c!"LOCAL") = some f ∧ f [] = none) :=
  ⟨⟨rfl, ⟨'L', c!"OCAL", rfl, by decide, by decide⟩, by decide⟩, _, rfl, by decide⟩

/-! ### C18: the symbol table -/

/-- Operations of token_type_symtab. -/
inductive SymOp where
  | add (name value : Str)
  | remove (name : Str)
  deriving DecidableEq

def SymOp.name : SymOp → Str
  | .add n _ => n
  | .remove n => n

-- models: vital/config/token_type_symtab.cxx:52-68 (add_entry, remove_entry)
def symStep (m : OMap Str Str) : SymOp → OMap Str Str
  | .add n v => m.insert n v
  | .remove n => m.erase n

-- models: vital/config/token_type_symtab.cxx:72-88 (lookup_entry): `some` result iff it returns true
def symLookup (m : OMap Str Str) (n : Str) : Option Str := if m.contains n then m.find? n else none

/-- C18: after any history a lookup succeeds iff the last operation on the name was an add, and yields
    the value added then. -/
theorem C18_symtab (ops : List SymOp) (n : Str) :
    symLookup (ops.foldl symStep []) n =
      match ops.reverse.find? (fun o => o.name = n) with
      | some (.add _ v) => some v
      | _ => none := by
  have hl : ∀ m : OMap Str Str, symLookup m n = m.find? n := by
    intro m; unfold symLookup OMap.contains
    cases OMap.find? m n <;> simp
  rw [hl]
  generalize hr : ops.reverse = r
  have : ops = r.reverse := by rw [← hr]; simp
  subst this
  clear hr
  induction r with
  | nil => rfl
  | cons o r ih =>
    rw [List.reverse_cons, List.foldl_append, List.foldl_cons, List.foldl_nil, List.find?_cons]
    cases o with
    | add k v =>
      by_cases h : k = n
      · subst h; simp [symStep, SymOp.name, OMap.find?_insert]
      · have hd : decide ((SymOp.add k v).name = n) = false := decide_eq_false h
        rw [hd]
        simp only [symStep, OMap.find?_insert]
        rw [if_neg (Ne.symm h), ih]
    | remove k =>
      by_cases h : k = n
      · subst h; simp [symStep, SymOp.name, OMap.find?_erase]
      · have hd : decide ((SymOp.remove k).name = n) = false := decide_eq_false h
        rw [hd]
        simp only [symStep, OMap.find?_erase]
        rw [if_neg (Ne.symm h), ih]

example : symLookup ([SymOp.add (c!"a") (c!"1"), .add (c!"b") (c!"2"), .add (c!"a") (c!"3"),
    .remove (c!"b")].foldl symStep []) (c!"a") = some (c!"3") := by decide +kernel

end Vital.Expand
