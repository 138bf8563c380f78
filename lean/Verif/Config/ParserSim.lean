import Verif.Config.ParserLex
/-
  One iteration of the parser loop on a line described by the specification.
-/
namespace Vital.Parser
open Vital Vital.Config Vital.Expand Vital.Sys

/-! ### The next line -/

/-- Reading a token from the text left of the line. -/
theorem token_rest {s : PS} (ht : s.tok ≠ []) (rest : List Str) :
    getToken s rest = ((lex s.tok).1, { s with tok := (lex s.tok).2,
                                               parseErr := s.parseErr || decide ((lex s.tok).1.ty = .error) }, rest) := by
  unfold getToken fill
  rw [if_neg ht]

/-! ### Flags -/

theorem toUpper_RO {c : Char} (h : c ∈ letters ++ c!",") :
    (toUpper c = 'R' ↔ c = 'R' ∨ c = 'r') ∧ (toUpper c = 'O' ↔ c = 'O' ∨ c = 'o') ∧ toUpper c ≠ '[' ∧
    toUpper c ≠ ']' := by
  revert c
  decide +kernel

theorem upper_RO {f : Str} (h : FlagText f) :
    decide (c!"[RO]" <:+: (c!"[" ++ f ++ c!"]").map toUpper) = decide (IsRO f) := by
  apply decide_eq_decide.2
  have hm : (c!"[" ++ f ++ c!"]").map toUpper = '[' :: (f.map toUpper ++ [']']) := by
    simp only [List.cons_append, List.nil_append, List.map_cons, List.map_append, List.map_nil]
    have h1 : toUpper '[' = '[' := by decide
    have h2 : toUpper ']' = ']' := by decide
    rw [h1, h2]
  rw [hm]
  have hno : '[' ∉ f.map toUpper ++ [']'] := by
    simp only [List.mem_append, List.mem_map, List.mem_singleton, not_or, not_exists]
    exact ⟨fun x hx => (toUpper_RO (h.2 x hx.1)).2.2.1 hx.2, by decide⟩
  constructor
  · rintro ⟨a, b, e⟩
    cases a with
    | cons x a =>
      exfalso
      simp only [List.cons_append, List.cons.injEq] at e
      apply hno
      rw [← e.2]
      simp
    | nil =>
      simp only [List.nil_append, List.cons_append, List.cons.injEq, true_and] at e
      have hb : f.map toUpper = c!"RO" := by
        have hf : f.map toUpper ++ [']'] = (c!"RO" ++ [']']) ++ b := by rw [← e]; rfl
        have hn : ']' ∉ f.map toUpper := by
          simp only [List.mem_map, not_exists]
          exact fun x hx => (toUpper_RO (h.2 x hx.1)).2.2.2 hx.2
        generalize f.map toUpper = g at hf hn
        cases g with
        | nil => simp at hf
        | cons g1 g =>
          cases g with
          | nil => simp at hf
          | cons g2 g =>
            cases g with
            | nil => simp at hf; simp [hf.1, hf.2.1]
            | cons g3 g => simp at hf; simp [hf.2.2.1] at hn
      cases f with
      | nil => simp at hb
      | cons f1 f =>
        cases f with
        | nil => simp at hb
        | cons f2 f =>
          cases f with
          | cons f3 f => simp at hb
          | nil =>
            simp only [List.map_cons, List.map_nil, List.cons.injEq, and_true] at hb
            have h1 := (toUpper_RO (h.2 f1 (by simp))).1.1 hb.1
            have h2 := (toUpper_RO (h.2 f2 (by simp))).2.1.1 hb.2
            unfold IsRO
            rcases h1 with rfl | rfl <;> rcases h2 with rfl | rfl <;> simp
  · intro hr
    refine ⟨[], [], ?_⟩
    rcases hr with rfl | rfl | rfl | rfl <;> decide

theorem getLast_append_cons {a : Str} {c : Char} {t : Str} {x : Char} :
    (a ++ c :: t).getLast? = some x ↔ (c :: t).getLast? = some x := by
  rw [List.getLast?_append]
  cases e : (c :: t).getLast? with
  | none => simp at e
  | some z => simp

/-- A character that can follow the flags. -/
structure Follows (c : Char) (t : Str) : Prop where
  space : isSpace c = false
  noFlag : (lex (c :: t)).1.ty ≠ .flag
  last : ∀ x, (c :: t).getLast? = some x → isSpace x = false

theorem flags_len {fl : Str} {fs : List Str} (h : Flags fl fs) (t : Str) (hl : ∀ x, t.getLast? = some x → isSpace x = false)
    (ht : t ≠ []) : fs.length ≤ (trim (fl ++ t)).length := by
  cases h with
  | nil => simp
  | @cons sp f t' fs' hsp hf h' =>
    have e : sp ++ c!"[" ++ f ++ c!"]" ++ t' ++ t = sp ++ ('[' :: (f ++ ']' :: (t' ++ t))) := by simp
    rw [e, trim_lead hsp (by simp; decide)]
    · have : fs'.length ≤ t'.length := by
        clear e hsp hf
        induction h' with
        | nil => simp
        | cons _ _ _ ih => simp; omega
      simp; omega
    · intro x hx
      apply hl
      cases t with
      | nil => exact absurd rfl ht
      | cons a t =>
        have : '[' :: (f ++ ']' :: (t' ++ a :: t)) = ('[' :: (f ++ ']' :: t')) ++ a :: t := by simp
        rw [this, getLast_append_cons] at hx
        exact hx

theorem trim_flags_cons {sp f t' : Str} (hsp : Blank sp) {c : Char} {t : Str} (hf : Follows c t) :
    trim (sp ++ c!"[" ++ f ++ c!"]" ++ t' ++ c :: t) = c!"[" ++ f ++ c!"]" ++ (t' ++ c :: t) := by
  have e : sp ++ c!"[" ++ f ++ c!"]" ++ t' ++ c :: t = sp ++ ('[' :: (f ++ ']' :: (t' ++ c :: t))) := by simp
  rw [e, trim_lead hsp (by simp; decide)]
  · simp
  · intro x hx
    apply hf.last
    have : '[' :: (f ++ ']' :: (t' ++ c :: t)) = ('[' :: (f ++ ']' :: t')) ++ c :: t := by simp
    rw [this, getLast_append_cons] at hx
    exact hx

theorem flagLoop_flags {fl : Str} {fs : List Str} (hfl : Flags fl fs) {c : Char} {t : Str} (hf : Follows c t)
    (rest : List Str) : ∀ (n : Nat) (s : PS) (ro : Bool), fs.length ≤ n → s.tok = trim (fl ++ c :: t) →
      flagLoop n (getToken s rest).1 (getToken s rest).2.1 (getToken s rest).2.2 ro =
        (ro || fs.any (IsRO ·), (lex (c :: t)).1,
          { s with tok := (lex (c :: t)).2,
                   parseErr := s.parseErr || fs.any (¬ IsRO ·) || decide ((lex (c :: t)).1.ty = .error) }, rest) := by
  induction hfl with
  | @nil sp hsp =>
    intro n s ro _ hs
    rw [trim_lead hsp (by simpa using hf.space) hf.last] at hs
    rw [token_rest (by rw [hs]; simp), hs]
    simp only
    cases n with
    | zero => simp [flagLoop]
    | succ n =>
      unfold flagLoop
      rw [if_neg hf.noFlag]
      simp
  | @cons sp f t' fs' hsp hft h' ih =>
    intro n s ro hn hs
    rw [trim_flags_cons hsp hf] at hs
    rw [token_rest (by rw [hs]; simp), hs]
    obtain ⟨n, rfl⟩ : ∃ m, n = m + 1 := ⟨n - 1, by simp at hn; omega⟩
    rw [lex_flag hft]
    simp only
    unfold flagLoop
    rw [if_pos rfl]
    simp only [upper_RO hft]
    have := ih n { s with tok := trim (t' ++ c :: t),
                          parseErr := (s.parseErr || decide (TokenType.flag = .error)) || !decide (IsRO f) }
      (ro || decide (IsRO f)) (by simp at hn; omega) rfl
    rw [this]
    simp only [List.any_cons]
    have e1 : decide (TokenType.flag = TokenType.error) = false := rfl
    rw [e1]
    simp only [Bool.or_false, Bool.or_assoc]
    refine Prod.ext rfl (Prod.ext rfl (Prod.ext ?_ rfl))
    simp

/-! ### One iteration -/

theorem blank_delim {sp : Str} (h : Blank sp) (hn : sp ≠ []) (r : Str) : Delim (sp ++ r) := by
  apply delim_of_head
  intro c hc
  cases sp with
  | nil => exact absurd rfl hn
  | cons a sp =>
    simp at hc; subst hc
    exact space_not_word (h a (by simp))

theorem flags_delim {fl : Str} {fs : List Str} (h : Flags fl fs) {c : Char} {t : Str} (hd : Delim (c :: t)) :
    Delim (fl ++ c :: t) := by
  cases h with
  | @nil sp hsp =>
    by_cases e : fl = []
    · subst e; exact hd
    · exact blank_delim hsp e _
  | @cons sp f t' fs' hsp _ _ =>
    by_cases e : sp = []
    · subst e
      apply delim_of_head
      intro c hc
      simp at hc; subst hc; decide
    · have : sp ++ c!"[" ++ f ++ c!"]" ++ t' ++ c :: t = sp ++ (c!"[" ++ f ++ c!"]" ++ t' ++ c :: t) := by simp
      rw [this]
      exact blank_delim hsp e _

theorem key_head_nonspace {k : Str} (h : Key k) (r : Str) : ∀ c, (k ++ r).head? = some c → isSpace c = false := by
  obtain ⟨_, ⟨a, ha, hal⟩, _, _⟩ := h
  intro c hc
  cases k with
  | nil => simp at ha
  | cons b k =>
    simp at ha hc; subst ha; subst hc
    exact word_not_space (letter_word hal)

theorem key_ne_nil {k : Str} (h : Key k) : k ≠ [] := by
  rintro rfl
  have := h.1
  simp at this

theorem last_suffix {a b : Str} (hb : b ≠ []) (h : ∀ x, (a ++ b).getLast? = some x → isSpace x = false) :
    ∀ x, b.getLast? = some x → isSpace x = false := by
  cases b with
  | nil => exact absurd rfl hb
  | cons c t => intro x hx; exact h x (getLast_append_cons.2 hx)

theorem trim_rest {sp : Str} (h : Blank sp) {r : Str} (hh : ∀ c, r.head? = some c → isSpace c = false)
    {a : Str} (hl : ∀ x, (a ++ (sp ++ r)).getLast? = some x → isSpace x = false) (hr : r ≠ []) : trim (sp ++ r) = r :=
  trim_lead h hh (last_suffix (a := a ++ sp) hr (by simpa using hl))

/-- The tokens of a definition from the key on. -/
theorem define_key {w : World} {file : Str} {rel : Bool} {key fl : Str} {fs : List Str} (hfl : Flags fl fs)
    {c : Char} {t : Str} (hf : Follows c t) {s : PS} {rest : List Str} (hs : s.tok = trim (fl ++ c :: t)) :
    defineStep w file rel ⟨.word, key⟩ s rest =
      match (lex (c :: t)).1.ty with
      | .assign => assignStep w file rel (fs.any (IsRO ·)) key (lex (c :: t)).1.val
          { s with tok := (lex (c :: t)).2, parseErr := s.parseErr || fs.any (¬ IsRO ·) } rest
      | .localAssign =>
          .more { s with tok := (lex (c :: t)).2, parseErr := s.parseErr || fs.any (¬ IsRO ·),
                         symtab := symStep s.symtab (.add key (expandToken (types w s) (lex (c :: t)).1.val)) } rest
      | _ => .more { s with tok := [], parseErr := true } rest := by
  have hlen := flags_len hfl (c :: t) hf.last (by simp)
  unfold defineStep
  rw [if_pos rfl]
  have hne : s.tok ≠ [] := by
    rw [hs]
    intro e
    cases hfl with
    | @nil sp hsp => rw [trim_lead hsp (by simpa using hf.space) hf.last] at e; simp at e
    | cons hsp _ _ => rw [trim_flags_cons hsp hf] at e; simp at e
  have hfuel : fs.length ≤ textLeft (getToken s rest).2.1 (getToken s rest).2.2 + 1 := by
    rw [token_rest hne, hs]
    simp only [textLeft]
    cases hfl with
    | nil => simp
    | cons hsp hft h' =>
      rw [trim_flags_cons hsp hf, lex_flag hft]
      have := flags_len h' (c :: t) hf.last (by simp)
      simp only [List.length_cons]
      omega
  have := flagLoop_flags hfl hf rest _ s false hfuel hs
  rcases e : getToken s rest with ⟨t1, s1, rest1⟩
  rw [e] at this
  simp only at this ⊢
  rw [this]
  simp only [Bool.false_or]
  cases hty : (lex (c :: t)).1.ty <;> simp [syntaxError, types]

theorem not_kw {k : Str} (h : k ∉ keywords) :
    k ≠ c!"include" ∧ k ≠ c!"block" ∧ k ≠ c!"endblock" ∧ k ≠ c!"relativepath" := by
  simpa [keywords] using h

theorem item_define {w : World} {file : Str} {s : PS} {rest : List Str} {t : Token} {s1 : PS} {rest1 : List Str}
    (h : getToken s rest = (t, s1, rest1)) (he : t.ty ≠ .eof) (hk : t.val ∉ keywords) :
    item w file s rest = defineStep w file false t s1 rest1 := by
  unfold item
  rw [h]
  obtain ⟨h1, h2, h3, h4⟩ := not_kw hk
  simp only [if_neg he, if_neg h1, if_neg h2, if_neg h3, if_neg h4]

theorem item_rel {w : World} {file : Str} {s : PS} {rest : List Str} {t : Token} {s1 : PS} {rest1 : List Str}
    (h : getToken s rest = (t, s1, rest1)) (he : t.ty ≠ .eof) (hk : t.val = c!"relativepath") :
    item w file s rest = defineStep w file true (getToken s1 rest1).1 (getToken s1 rest1).2.1 (getToken s1 rest1).2.2 := by
  unfold item
  rw [h]
  simp only [if_neg he, hk]
  rw [if_neg (by decide), if_neg (by decide), if_neg (by decide), if_pos trivial]

theorem item_block {w : World} {file : Str} {s : PS} {rest : List Str} {t : Token} {s1 : PS} {rest1 : List Str}
    (h : getToken s rest = (t, s1, rest1)) (he : t.ty ≠ .eof) (hk : t.val = c!"block") :
    item w file s rest = blockStep file s1 rest1 := by
  unfold item
  rw [h]
  simp only [if_neg he, hk]
  rw [if_neg (by decide), if_pos trivial]

theorem item_end {w : World} {file : Str} {s : PS} {rest : List Str} {t : Token} {s1 : PS} {rest1 : List Str}
    (h : getToken s rest = (t, s1, rest1)) (he : t.ty ≠ .eof) (hk : t.val = c!"endblock") :
    item w file s rest = endblockStep file s1 rest1 := by
  unfold item
  rw [h]
  simp only [if_neg he, hk]
  rw [if_neg (by decide), if_neg (by decide), if_pos trivial]

theorem item_incl {w : World} {file : Str} {s : PS} {rest : List Str} {t : Token} {s1 : PS} {rest1 : List Str}
    (h : getToken s rest = (t, s1, rest1)) (he : t.ty ≠ .eof) (hk : t.val = c!"include") :
    item w file s rest = includeStep w s1 rest1 := by
  unfold item
  rw [h]
  simp only [if_neg he, hk]
  rw [if_pos trivial]

/-- Definition lines: from the start of the line to the text after the flags. -/
theorem item_lead {w : World} {file : Str} {s : PS} {rest : List Str} {rel : Bool} {p key fl : Str} {fs : List Str}
    (hp : Lead rel p) (hk : Key key) (hkw : rel = false → key ∉ keywords) (_ : Flags fl fs) {c : Char} {t : Str}
    (hf : Follows c t) (hd : Delim (fl ++ c :: t)) {txt : Str} (hline : txt = p ++ key ++ fl ++ c :: t)
    {n : Nat} {s0 : PS} {rest' : List Str}
    (hg : getToken s rest = ((lex txt).1,
      { s0 with line := n, tok := (lex txt).2, parseErr := s0.parseErr || decide ((lex txt).1.ty = .error) }, rest')) :
    item w file s rest =
      defineStep w file rel ⟨.word, key⟩ { s0 with line := n, tok := trim (fl ++ c :: t) } rest' := by
  cases rel with
  | false =>
    have hp' : p = [] := hp
    subst hp'
    have e : txt = key ++ (fl ++ c :: t) := by rw [hline]; simp
    rw [e, lex_key hk hd] at hg
    rw [item_define hg (by simp) (hkw rfl)]
    simp
  | true =>
    obtain ⟨sp, hsp, hne, rfl⟩ := hp
    have e : txt = c!"relativepath" ++ (sp ++ (key ++ (fl ++ c :: t))) := by rw [hline]; simp
    rw [e, lex_key (keyword_key (by simp [keywords])) (blank_delim hsp hne _)] at hg
    rw [item_rel hg (by simp) rfl]
    have ht : trim (sp ++ (key ++ (fl ++ c :: t))) = key ++ (fl ++ c :: t) := by
      apply trim_lead hsp (key_head_nonspace hk _)
      intro x hx
      apply hf.last
      have : key ++ (fl ++ c :: t) = (key ++ fl) ++ c :: t := by simp
      rw [this, getLast_append_cons] at hx
      exact hx
    rw [token_rest (by simp only [ht]; intro e; exact key_ne_nil hk (List.append_eq_nil_iff.1 e).1)]
    simp only [ht, lex_key hk hd]
    simp

/-! ### Fuel of the flag loop, amount of text left -/

theorem trim_length_le (x : Str) : (trim x).length ≤ x.length := by
  obtain ⟨l, r, _, _, _, h⟩ := (stripsTo_iff x (trim x)).2 rfl
  have := congrArg List.length h
  simp at this
  omega

theorem lex_shorter {t : Str} (h : t ≠ []) : (lex t).2.length < t.length := by
  have hpos : 0 < t.length := List.length_pos_iff.2 h
  unfold lex
  split
  · simpa using hpos
  · split
    · simpa using hpos
    · split
      · rename_i f rest e
        obtain ⟨x, hx, _, e2⟩ := scanFlag_sound e
        have h1 := trim_length_le rest
        have h2 := congrArg List.length e2
        simp at h2 ⊢
        omega
      · split
        · rename_i v rest e
          obtain ⟨hk, e2⟩ := scanWord_sound e
          have h1 := trim_length_le rest
          have h2 := congrArg List.length e2
          have h3 := hk.1
          simp at h2 ⊢
          omega
        · simpa using hpos

theorem cleanLine_length_le (l : Str) : (cleanLine l).length ≤ l.length := by
  have h1 := trim_length_le l
  unfold cleanLine
  split
  · simp
  · split
    · have h2 := trim_length_le ((trim l).takeWhile (· != '#'))
      have h3 := (List.takeWhile_sublist (l := trim l) (fun x => x != '#')).length_le
      omega
    · exact h1

theorem getLine_line : ∀ (ls : List Str) {c : Str} {rest : List Str} {k : Nat}, getLine ls = (some c, rest, k) →
    ∃ l, c = cleanLine l ∧ c ≠ [] ∧ l.length + 1 + (rest.map (fun l => l.length + 1)).sum ≤ (ls.map (fun l => l.length + 1)).sum := by
  intro ls
  induction ls with
  | nil => intro c rest k h; simp [getLine] at h
  | cons l ls ih =>
    intro c rest k h
    unfold getLine at h
    split at h
    · rcases e : getLine ls with ⟨o, rest', k'⟩
      rw [e] at h
      simp only [Prod.mk.injEq] at h
      obtain ⟨rfl, rfl, _⟩ := h
      obtain ⟨l', h1, h2, h3⟩ := ih e
      refine ⟨l', h1, h2, ?_⟩
      simp only [List.map_cons, List.sum_cons]
      omega
    · rename_i hne
      simp only [Prod.mk.injEq, Option.some.injEq] at h
      obtain ⟨rfl, rfl, _⟩ := h
      exact ⟨l, rfl, hne, by simp⟩

/-- A token other than the end of file uses up text. -/
theorem getToken_left {s : PS} {rest : List Str} (h : (getToken s rest).1.ty ≠ .eof) :
    textLeft (getToken s rest).2.1 (getToken s rest).2.2 < textLeft s rest := by
  unfold getToken fill at h ⊢
  by_cases ht : s.tok = []
  · rw [if_pos ht] at h ⊢
    rcases e : getLine rest with ⟨o, rest', k⟩
    rw [e] at h
    cases o with
    | none => simp at h
    | some c =>
      obtain ⟨l, h0, h2, h1⟩ := getLine_line rest e
      have := lex_shorter h2
      have := cleanLine_length_le l
      rw [← h0] at this
      simp only [textLeft, ht, List.length_nil, Nat.zero_add]
      omega
  · rw [if_neg ht]
    have := lex_shorter ht
    simp only [textLeft]
    omega

/-- The flag loop does not depend on its bound. -/
theorem flagLoop_fuel : ∀ (n m : Nat) (t : Token) (s : PS) (rest : List Str) (ro : Bool), textLeft s rest + 1 ≤ n →
    textLeft s rest + 1 ≤ m → flagLoop n t s rest ro = flagLoop m t s rest ro := by
  intro n
  induction n with
  | zero => intro m t s rest ro h; omega
  | succ n ih =>
    intro m t s rest ro hn hm
    obtain ⟨m, rfl⟩ : ∃ k, m = k + 1 := ⟨m - 1, by omega⟩
    unfold flagLoop
    split
    · rename_i ht
      show flagLoop n (getToken { s with parseErr := s.parseErr || !decide (c!"[RO]" <:+: t.val.map toUpper) } rest).1
          (getToken { s with parseErr := s.parseErr || !decide (c!"[RO]" <:+: t.val.map toUpper) } rest).2.1
          (getToken { s with parseErr := s.parseErr || !decide (c!"[RO]" <:+: t.val.map toUpper) } rest).2.2 _ =
        flagLoop m (getToken { s with parseErr := s.parseErr || !decide (c!"[RO]" <:+: t.val.map toUpper) } rest).1
          (getToken { s with parseErr := s.parseErr || !decide (c!"[RO]" <:+: t.val.map toUpper) } rest).2.1
          (getToken { s with parseErr := s.parseErr || !decide (c!"[RO]" <:+: t.val.map toUpper) } rest).2.2 _
      have hleft : textLeft { s with parseErr := s.parseErr || !decide (c!"[RO]" <:+: t.val.map toUpper) } rest = textLeft s rest := rfl
      generalize { s with parseErr := s.parseErr || !decide (c!"[RO]" <:+: t.val.map toUpper) } = q at hleft ⊢
      by_cases he : (getToken q rest).1.ty = .eof
      · have stop : ∀ k b, flagLoop k (getToken q rest).1 (getToken q rest).2.1 (getToken q rest).2.2 b =
            (b, (getToken q rest).1, (getToken q rest).2.1, (getToken q rest).2.2) := by
          intro k b
          cases k with
          | zero => rfl
          | succ k => unfold flagLoop; rw [if_neg (by rw [he]; simp)]
        rw [stop, stop]
      · have := getToken_left he
        exact ih m _ _ _ _ (by omega) (by omega)
    · rfl

/-! ### Logical lines -/

/-- Reading a token when the line is used up: the same as with the next line already read. -/
theorem token_next {s : PS} (ht : s.tok = []) {rest rest2 : List Str} {c2 : Str} {k : Nat}
    (hg : getLine rest = (some c2, rest2, k)) (hc : c2 ≠ []) :
    getToken s rest = getToken { s with tok := c2, line := s.line + k } rest2 := by
  rw [token_rest (s := { s with tok := c2, line := s.line + k }) hc]
  unfold getToken fill
  rw [if_pos ht, hg]

theorem token_end {s : PS} (ht : s.tok = []) {rest rest2 : List Str} {k : Nat}
    (hg : getLine rest = (none, rest2, k)) :
    getToken s rest = (⟨.eof, []⟩, { s with line := s.line + k }, rest2) := by
  unfold getToken fill
  rw [if_pos ht, hg]

/-- Enough fuel for the flag loop. -/
def Fuel (n : Nat) (t : Token) (s : PS) (rest : List Str) : Prop := textLeft s rest + 1 ≤ n ∨ t.ty = .eof

theorem flagLoop_fuel' {n m : Nat} {t : Token} {s : PS} {rest : List Str} {ro : Bool} (h1 : Fuel n t s rest)
    (h2 : Fuel m t s rest) : flagLoop n t s rest ro = flagLoop m t s rest ro := by
  by_cases he : t.ty = .eof
  · have stop : ∀ k b, flagLoop k t s rest b = (b, t, s, rest) := by
      intro k b
      cases k with
      | zero => rfl
      | succ k => unfold flagLoop; rw [if_neg (by rw [he]; simp)]
    rw [stop, stop]
  · exact flagLoop_fuel n m t s rest ro (h1.resolve_right he) (h2.resolve_right he)

theorem fuel_next {n : Nat} {s q : PS} {rest : List Str} (h : textLeft s rest + 1 ≤ n + 1) (hq : textLeft q rest = textLeft s rest) :
    Fuel n (getToken q rest).1 (getToken q rest).2.1 (getToken q rest).2.2 := by
  by_cases he : (getToken q rest).1.ty = .eof
  · exact .inr he
  · have := getToken_left he
    left; omega

/-- The flag loop from the state before its first token. -/
def flagRun (n : Nat) (s : PS) (rest : List Str) (ro : Bool) : Bool × Token × PS × List Str :=
  flagLoop n (getToken s rest).1 (getToken s rest).2.1 (getToken s rest).2.2 ro

def FuelRun (n : Nat) (s : PS) (rest : List Str) : Prop :=
  Fuel n (getToken s rest).1 (getToken s rest).2.1 (getToken s rest).2.2

theorem flagRun_flag {n : Nat} {s : PS} {rest : List Str} {ro : Bool} {f r : Str} (hf : FlagText f)
    (hs : s.tok = c!"[" ++ f ++ c!"]" ++ r) (hn : FuelRun n s rest) :
    ∃ n', flagRun n s rest ro = flagRun n' { s with tok := trim r, parseErr := s.parseErr || !decide (IsRO f) } rest (ro || decide (IsRO f)) ∧
      FuelRun n' { s with tok := trim r, parseErr := s.parseErr || !decide (IsRO f) } rest := by
  unfold FuelRun at hn
  unfold flagRun
  rw [token_rest (by rw [hs]; simp), hs, lex_flag hf] at hn ⊢
  simp only at hn ⊢
  rcases hn with hn | hn
  · obtain ⟨n, rfl⟩ : ∃ k, n = k + 1 := ⟨n - 1, by omega⟩
    refine ⟨n, ?_, ?_⟩
    · conv => lhs; unfold flagLoop
      rw [if_pos rfl]
      simp only [upper_RO hf]
      have e1 : decide (TokenType.flag = TokenType.error) = false := rfl
      rw [e1, Bool.or_false]
    · exact fuel_next hn rfl
  · simp at hn

theorem lead_flag {sp f t' : Str} (hsp : Blank sp)
    (hl : ∀ x, (sp ++ c!"[" ++ f ++ c!"]" ++ t').getLast? = some x → isSpace x = false) :
    trim (sp ++ c!"[" ++ f ++ c!"]" ++ t') = c!"[" ++ f ++ c!"]" ++ t' := by
  have e : sp ++ c!"[" ++ f ++ c!"]" ++ t' = sp ++ ('[' :: (f ++ ']' :: t')) := by simp
  rw [e] at hl ⊢
  rw [trim_lead hsp (by simp; decide)]
  · simp
  · exact last_suffix (by simp) hl

theorem flag_tail {sp f t' : Str} (hl : ∀ x, (sp ++ c!"[" ++ f ++ c!"]" ++ t').getLast? = some x → isSpace x = false) :
    ∀ x, t'.getLast? = some x → isSpace x = false := by
  cases t' with
  | nil => simp
  | cons a t => exact last_suffix (by simp) hl

theorem last_join {a c2 : Str} (hc : c2 ≠ []) (ht : Trimmed c2) :
    ∀ x, (a ++ ' ' :: c2).getLast? = some x → isSpace x = false := by
  intro x hx
  have : a ++ ' ' :: c2 = (a ++ [' ']) ++ c2 := by simp
  rw [this] at hx
  cases c2 with
  | nil => exact absurd rfl hc
  | cons b c2 => exact ht.2 x (getLast_append_cons.1 hx)

theorem flags_join {fl : Str} {fs : List Str} (hfl : Flags fl fs) {rest rest2 : List Str} {c2 : Str} {k : Nat}
    (hg : getLine rest = (some c2, rest2, k)) (hc : c2 ≠ []) (htr : Trimmed c2) :
    ∀ (n m : Nat) (s : PS) (ro : Bool), (∀ x, fl.getLast? = some x → isSpace x = false) → s.tok = trim fl →
      FuelRun n s rest → FuelRun m { s with tok := trim (fl ++ ' ' :: c2), line := s.line + k } rest2 →
      flagRun n s rest ro = flagRun m { s with tok := trim (fl ++ ' ' :: c2), line := s.line + k } rest2 ro := by
  induction hfl with
  | @nil sp hsp =>
    intro n m s ro hl ht hn hm
    rw [trim_blank hsp] at ht
    have e : trim (sp ++ ' ' :: c2) = c2 := by
      have : sp ++ ' ' :: c2 = (sp ++ [' ']) ++ c2 := by simp
      rw [this, trim_lead (by intro c hcc; rcases List.mem_append.1 hcc with h | h; exact hsp c h; simp at h; subst h; decide) htr.1 htr.2]
    rw [e] at hm ⊢
    unfold flagRun FuelRun at *
    rw [token_next ht hg hc] at hn ⊢
    exact flagLoop_fuel' hn hm
  | @cons sp f t' fs' hsp hf h' ih =>
    intro n m s ro hl ht hn hm
    rw [lead_flag hsp hl] at ht
    obtain ⟨n', e1, f1⟩ := flagRun_flag (ro := ro) hf ht hn
    have e2 : trim (sp ++ c!"[" ++ f ++ c!"]" ++ t' ++ ' ' :: c2) = c!"[" ++ f ++ c!"]" ++ (t' ++ ' ' :: c2) := by
      have := lead_flag (t' := t' ++ ' ' :: c2) (f := f) hsp (by
        have := last_join (a := sp ++ c!"[" ++ f ++ c!"]" ++ t') hc htr
        simpa using this)
      simpa using this
    rw [e2] at hm ⊢
    obtain ⟨m', e3, f3⟩ := flagRun_flag (ro := ro) (s := { s with tok := c!"[" ++ f ++ c!"]" ++ (t' ++ ' ' :: c2), line := s.line + k }) hf rfl hm
    rw [e1, e3]
    exact ih n' m' { s with tok := trim t', parseErr := s.parseErr || !decide (IsRO f) } _ (flag_tail hl) rfl f1 f3

theorem flags_cut {fl : Str} {fs : List Str} (hfl : Flags fl fs) {rest rest2 : List Str} {k : Nat}
    (hg : getLine rest = (none, rest2, k)) :
    ∀ (n : Nat) (s : PS) (ro : Bool), (∀ x, fl.getLast? = some x → isSpace x = false) → s.tok = trim fl →
      FuelRun n s rest → ∃ b b', flagRun n s rest ro = (b', ⟨.eof, []⟩, { s with tok := [], line := s.line + k, parseErr := b }, rest2) := by
  induction hfl with
  | @nil sp hsp =>
    intro n s ro hl ht hn
    rw [trim_blank hsp] at ht
    unfold flagRun
    rw [token_end ht hg]
    refine ⟨s.parseErr, ro, ?_⟩
    simp only
    cases n with
    | zero => unfold flagLoop; simp [ht]
    | succ n => unfold flagLoop; rw [if_neg (by simp)]; simp [ht]
  | @cons sp f t' fs' hsp hf h' ih =>
    intro n s ro hl ht hn
    rw [lead_flag hsp hl] at ht
    obtain ⟨n', e1, f1⟩ := flagRun_flag (ro := ro) hf ht hn
    rw [e1]
    exact ih n' { s with tok := trim t', parseErr := s.parseErr || !decide (IsRO f) } _ (flag_tail hl) rfl f1

/-- What follows the flags. -/
def defineEnd (w : World) (file : Str) (rel : Bool) (key : Str) (q : Bool × Token × PS × List Str) : Step :=
  match q with
  | (ro, t2, s2, rest2) =>
    match t2.ty with
    | .assign => assignStep w file rel ro key t2.val s2 rest2
    | .localAssign =>
      .more { s2 with symtab := symStep s2.symtab (.add key (expandToken (types w s2) t2.val)) } rest2
    | _ => syntaxError s2 rest2

theorem define_run {w : World} {file : Str} {rel : Bool} {key : Str} {s : PS} {rest : List Str} :
    ∃ n, FuelRun n s rest ∧ defineStep w file rel ⟨.word, key⟩ s rest = defineEnd w file rel key (flagRun n s rest false) := by
  refine ⟨textLeft (getToken s rest).2.1 (getToken s rest).2.2 + 1, .inl (Nat.le_refl _), ?_⟩
  show defineStep w file rel ⟨.word, key⟩ s rest = defineEnd w file rel key
    (flagLoop (textLeft (getToken s rest).2.1 (getToken s rest).2.2 + 1) (getToken s rest).1 (getToken s rest).2.1
      (getToken s rest).2.2 false)
  unfold defineStep
  rw [if_pos rfl]
  rcases getToken s rest with ⟨t1, s1, r1⟩
  rfl

/-- A logical line may be joined. -/
theorem item_join {w : World} {file : Str} {s : PS} {rest rest2 : List Str} {c2 : Str} {k : Nat} (hi : Incomplete s.tok)
    (ht : Trimmed s.tok) (hg : getLine rest = (some c2, rest2, k)) (hc : c2 ≠ []) (htr : Trimmed c2) :
    item w file s rest = item w file { s with tok := s.tok ++ c!" " ++ c2, line := s.line + k } rest2 := by
  have htrim : trim (' ' :: c2) = c2 := by
    have := trim_lead (sp := [' ']) (x := c2) (by simp [Blank]; decide) htr.1 htr.2
    simpa using this
  have hdel : Delim (' ' :: c2) := delim_of_head (by intro c h; simp at h; subst h; decide)
  have hnil : Delim [] := delim_of_head (by simp)
  generalize hx : s.tok = x at hi ht
  have simple : ∀ kw, kw ∈ keywords → s.tok = kw →
      getToken s rest = (⟨.word, kw⟩, { s with tok := [] }, rest) ∧
      getToken { s with tok := kw ++ c!" " ++ c2, line := s.line + k } rest2 =
        (⟨.word, kw⟩, { s with tok := c2, line := s.line + k }, rest2) := by
    intro kw hkw hs
    have hk := keyword_key hkw
    refine ⟨?_, ?_⟩
    · rw [token_rest (by rw [hs]; exact key_ne_nil hk), hs]
      have := lex_key (r := []) hk hnil
      rw [List.append_nil] at this
      rw [this]
      simp [trim_blank (s := []) (by simp [Blank])]
    · rw [token_rest (by simp)]
      have e : kw ++ c!" " ++ c2 = kw ++ (' ' :: c2) := by simp
      simp only [e, lex_key hk hdel, htrim]
      simp
  cases hi with
  | block =>
    obtain ⟨h1, h2⟩ := simple (c!"block") (by simp [keywords]) hx
    rw [item_block h1 (by simp) rfl, item_block h2 (by simp) rfl]
    unfold blockStep
    rw [token_next (s := { s with tok := [] }) rfl hg hc]
  | rel =>
    obtain ⟨h1, h2⟩ := simple (c!"relativepath") (by simp [keywords]) hx
    rw [item_rel h1 (by simp) rfl, item_rel h2 (by simp) rfl]
    rw [token_next (s := { s with tok := [] }) rfl hg hc]
  | @key rel p key fl flags hp hk hkw hfl =>
    have hlast : ∀ x, fl.getLast? = some x → isSpace x = false := by
      cases fl with
      | nil => simp
      | cons a t => exact last_suffix (by simp) ht.2
    have hd1 : Delim fl := by
      cases hfl with
      | @nil sp hsp =>
        apply delim_of_head
        intro c hc; cases fl with
        | nil => simp at hc
        | cons a t => simp at hc; subst hc; exact space_not_word (hsp a (by simp))
      | @cons sp f t' fs' hsp _ _ =>
        apply delim_of_head
        intro c hc
        cases sp with
        | nil => simp at hc; subst hc; decide
        | cons a t => simp at hc; subst hc; exact space_not_word (hsp a (by simp))
    have hd2 : Delim (fl ++ ' ' :: c2) := flags_delim hfl hdel
    have hkey : ∀ (s : PS) (rest : List Str) (r : Str), Delim r → s.tok = key ++ r →
        getToken s rest = (⟨.word, key⟩, { s with tok := trim r }, rest) := by
      intro s rest r hd hs
      rw [token_rest (by rw [hs]; intro e; exact key_ne_nil hk (List.append_eq_nil_iff.1 e).1), hs, lex_key hk hd]
      simp
    have hdef : defineStep w file rel ⟨.word, key⟩ { s with tok := trim fl } rest =
        defineStep w file rel ⟨.word, key⟩ { s with tok := trim (fl ++ ' ' :: c2), line := s.line + k } rest2 := by
      obtain ⟨n, f1, e1⟩ := define_run (w := w) (file := file) (rel := rel) (key := key) (s := { s with tok := trim fl }) (rest := rest)
      obtain ⟨m, f2, e2⟩ := define_run (w := w) (file := file) (rel := rel) (key := key)
        (s := { s with tok := trim (fl ++ ' ' :: c2), line := s.line + k }) (rest := rest2)
      rw [e1, e2, flags_join hfl hg hc htr n m { s with tok := trim fl } false hlast rfl f1 f2]
    cases rel with
    | false =>
      have hp' : p = [] := hp
      subst hp'
      rw [item_define (hkey s rest fl hd1 (by rw [hx]; simp)) (by simp) (hkw rfl)]
      rw [item_define (hkey { s with tok := [] ++ key ++ fl ++ c!" " ++ c2, line := s.line + k } rest2 (fl ++ ' ' :: c2) hd2 (by simp)) (by simp) (hkw rfl)]
      exact hdef
    | true =>
      obtain ⟨sp, hsp, hne, rfl⟩ := hp
      have hrk := keyword_key (k := c!"relativepath") (by simp [keywords])
      have lead : ∀ (s : PS) (rest : List Str) (r : Str), s.tok = c!"relativepath" ++ (sp ++ (key ++ r)) →
          (∀ x, (key ++ r).getLast? = some x → isSpace x = false) →
          getToken s rest = (⟨.word, c!"relativepath"⟩, { s with tok := key ++ r }, rest) := by
        intro s rest r hs hl
        rw [token_rest (by rw [hs]; simp), hs, lex_key hrk (blank_delim hsp hne _), trim_lead hsp (key_head_nonspace hk _) hl]
        simp
      have a1 := lead s rest fl (by rw [hx]; simp) (by
        refine last_suffix (a := c!"relativepath" ++ sp) (by intro e; exact key_ne_nil hk (List.append_eq_nil_iff.1 e).1) ?_
        simpa using ht.2)
      have a2 := lead { s with tok := c!"relativepath" ++ sp ++ key ++ fl ++ c!" " ++ c2, line := s.line + k } rest2 (fl ++ ' ' :: c2)
        (by simp) (by have := last_join (a := key ++ fl) hc htr; simpa using this)
      rw [item_rel a1 (by simp) rfl, item_rel a2 (by simp) rfl]
      rw [hkey _ rest fl hd1 rfl, hkey _ rest2 (fl ++ ' ' :: c2) hd2 rfl]
      exact hdef

/-- A logical line cut off by the end of the file. -/
theorem item_cut {w : World} {file : Str} {s : PS} {rest rest2 : List Str} {k : Nat} (hi : Incomplete s.tok)
    (ht : Trimmed s.tok) (hg : getLine rest = (none, rest2, k)) :
    item w file s rest = .more { s with tok := [], line := s.line + k, parseErr := true } rest2 := by
  have hnil : Delim [] := delim_of_head (by simp)
  generalize hx : s.tok = x at hi ht
  have simple : ∀ kw, kw ∈ keywords → s.tok = kw →
      getToken s rest = (⟨.word, kw⟩, { s with tok := [] }, rest) := by
    intro kw hkw hs
    have hk := keyword_key hkw
    rw [token_rest (by rw [hs]; exact key_ne_nil hk), hs]
    have := lex_key (r := []) hk hnil
    rw [List.append_nil] at this
    rw [this]
    simp [trim_blank (s := []) (by simp [Blank])]
  cases hi with
  | block =>
    rw [item_block (simple (c!"block") (by simp [keywords]) hx) (by simp) rfl]
    unfold blockStep
    rw [token_end (s := { s with tok := [] }) rfl hg]
    simp [syntaxError]
  | rel =>
    rw [item_rel (simple (c!"relativepath") (by simp [keywords]) hx) (by simp) rfl]
    rw [token_end (s := { s with tok := [] }) rfl hg]
    simp [defineStep, syntaxError]
  | @key rel p key fl flags hp hk hkw hfl =>
    have hlast : ∀ x, fl.getLast? = some x → isSpace x = false := by
      cases fl with
      | nil => simp
      | cons a t => exact last_suffix (by simp) ht.2
    have hd1 : Delim fl := by
      cases hfl with
      | @nil sp hsp =>
        apply delim_of_head
        intro c hc; cases fl with
        | nil => simp at hc
        | cons a t => simp at hc; subst hc; exact space_not_word (hsp a (by simp))
      | @cons sp f t' fs' hsp _ _ =>
        apply delim_of_head
        intro c hc
        cases sp with
        | nil => simp at hc; subst hc; decide
        | cons a t => simp at hc; subst hc; exact space_not_word (hsp a (by simp))
    have hkey : ∀ (s : PS) (rest : List Str) (r : Str), Delim r → s.tok = key ++ r →
        getToken s rest = (⟨.word, key⟩, { s with tok := trim r }, rest) := by
      intro s rest r hd hs
      rw [token_rest (by rw [hs]; intro e; exact key_ne_nil hk (List.append_eq_nil_iff.1 e).1), hs, lex_key hk hd]
      simp
    have hdef : defineStep w file rel ⟨.word, key⟩ { s with tok := trim fl } rest =
        .more { s with tok := [], line := s.line + k, parseErr := true } rest2 := by
      obtain ⟨n, f1, e1⟩ := define_run (w := w) (file := file) (rel := rel) (key := key) (s := { s with tok := trim fl }) (rest := rest)
      obtain ⟨b, b', e2⟩ := flags_cut hfl hg n { s with tok := trim fl } false hlast rfl f1
      rw [e1, e2]
      simp [defineEnd, syntaxError]
    cases rel with
    | false =>
      have hp' : p = [] := hp
      subst hp'
      rw [item_define (hkey s rest fl hd1 (by rw [hx]; simp)) (by simp) (hkw rfl)]
      exact hdef
    | true =>
      obtain ⟨sp, hsp, hne, rfl⟩ := hp
      have hrk := keyword_key (k := c!"relativepath") (by simp [keywords])
      have a1 : getToken s rest = (⟨.word, c!"relativepath"⟩, { s with tok := key ++ fl }, rest) := by
        have hs : s.tok = c!"relativepath" ++ (sp ++ (key ++ fl)) := by rw [hx]; simp
        rw [token_rest (by rw [hs]; simp), hs, lex_key hrk (blank_delim hsp hne _), trim_lead hsp (key_head_nonspace hk _)]
        · simp
        · refine last_suffix (a := c!"relativepath" ++ sp) (by intro e; exact key_ne_nil hk (List.append_eq_nil_iff.1 e).1) ?_
          simpa using ht.2
      rw [item_rel a1 (by simp) rfl]
      rw [hkey _ rest fl hd1 rfl]
      exact hdef

theorem trimmed_join {a b : Str} (ha : a ≠ []) (hb : b ≠ []) (h1 : Trimmed a) (h2 : Trimmed b) : Trimmed (a ++ c!" " ++ b) := by
  refine ⟨?_, ?_⟩
  · intro c hc
    cases a with
    | nil => exact absurd rfl ha
    | cons x a => exact h1.1 c (by simpa using hc)
  · intro x hx
    exact last_join (a := a) hb h2 x (by simpa using hx)

theorem clean_trimmed {l c : Str} (h : CleansTo l c) : Trimmed c := by
  obtain ⟨_, _, _, _, _, _, h, _⟩ := h
  exact h

theorem getLine_blanks {bl : List Str} (h : ∀ x ∈ bl, CleansTo x []) (ls : List Str) :
    getLine (bl ++ ls) = ((getLine ls).1, (getLine ls).2.1, bl.length + (getLine ls).2.2) := by
  induction bl with
  | nil => simp
  | cons l bl ih =>
    rw [List.cons_append]
    conv => lhs; unfold getLine
    rw [if_pos (clean_of (h l (by simp))), ih (fun x hx => h x (by simp [hx]))]
    simp only [List.length_cons, Prod.mk.injEq, true_and]
    omega

theorem getLine_first {l c : Str} (h : CleansTo l c) (hc : c ≠ []) (ls : List Str) : getLine (l :: ls) = (some c, ls, 1) := by
  unfold getLine
  have := clean_of h
  rw [if_neg (by rw [this]; exact hc), this]

/-- Following a logical line. -/
theorem logical_item {w : World} {file : Str} {n : Nat} {c : Str} {ls : List Str} {m : Nat} {d : Directive} {rest : List Str}
    (h : Logical n c ls m d rest) : ∀ (s : PS), s.line = n → s.tok = c → c ≠ [] → Trimmed c →
      (∃ c', c' ≠ [] ∧ Trimmed c' ∧ LineIs c' d ∧
        item w file s ls = item w file { s with line := m, tok := c' } rest) ∨
      (d = .bad ∧ rest = [] ∧ item w file s ls = .more { s with line := m, tok := [], parseErr := true } []) := by
  induction h with
  | whole h =>
    rintro s rfl rfl hc ht
    exact .inl ⟨_, hc, ht, h, rfl⟩
  | @join n c bl l c2 ls m d rest hi hbl hl hne h ih =>
    rintro s rfl rfl hc ht
    have hg : getLine (bl ++ l :: ls) = (some c2, ls, bl.length + 1) := by
      rw [getLine_blanks hbl, getLine_first hl hne]
    rw [item_join hi ht hg hne (clean_trimmed hl)]
    exact ih { s with tok := s.tok ++ c!" " ++ c2, line := s.line + (bl.length + 1) } rfl rfl (by simp)
      (trimmed_join hc hne ht (clean_trimmed hl))
  | @cut n c ls hi hbl =>
    rintro s rfl rfl hc ht
    have hg : getLine ls = (none, [], ls.length) := by
      have := getLine_blanks hbl []
      simpa [getLine] using this
    refine .inr ⟨rfl, rfl, ?_⟩
    rw [item_cut hi ht hg]

/-- `= directive` counts as the directive. -/
theorem normal_item {w : World} {file : Str} {c c' : Str} (h : Normal c c') (s : PS) (hs : s.tok = c) (hc : c ≠ [])
    (rest : List Str) : item w file s rest = item w file { s with tok := c' } rest := by
  have go : ∀ (ty : TokenType) (k : Str), ty = .assign ∨ ty = .localAssign → k ∈ keywords → lex c = (⟨ty, k⟩, []) →
      item w file s rest = item w file { s with tok := k } rest := by
    intro ty k hty hk hlex
    have hkey := keyword_key hk
    have h1 : getToken s rest = (⟨ty, k⟩, { s with tok := [] }, rest) := by
      rw [token_rest (by rw [hs]; exact hc), hs, hlex]
      rcases hty with rfl | rfl <;> simp
    have h2 : getToken { s with tok := k } rest = (⟨.word, k⟩, { s with tok := [] }, rest) := by
      rw [token_rest (s := { s with tok := k }) (key_ne_nil hkey)]
      have := lex_key (r := []) hkey (delim_of_head (by simp))
      rw [List.append_nil] at this
      simp only [this]
      simp [trim_blank (s := []) (by simp [Blank])]
    have he : ty ≠ .eof := by rcases hty with rfl | rfl <;> simp
    unfold item
    rw [h1, h2]
    simp only [if_neg he]
    have h3 : ∀ x, defineStep w file false ⟨ty, k⟩ { s with tok := [] } rest = x → x = x := fun _ _ => rfl
    simp only [keywords, List.mem_cons, List.not_mem_nil, or_false] at hk
    rcases hk with rfl | rfl | rfl | rfl <;> rfl
  cases h with
  | same => rw [← hs]
  | @assign v k hv hk => exact go .assign c' (.inl rfl) hk (by rw [lex_assign, (stripsTo_iff _ _).1 hv])
  | @symAssign v k hv hk => exact go .localAssign c' (.inr rfl) hk (by rw [lex_sym, (stripsTo_iff _ _).1 hv])

theorem normal_trimmed {c c' : Str} (h : Normal c c') (hc : c ≠ []) (ht : Trimmed c) : c' ≠ [] ∧ Trimmed c' := by
  have kw : ∀ k, k ∈ keywords → k ≠ [] ∧ Trimmed k := by
    intro k hk
    refine ⟨key_ne_nil (keyword_key hk), ?_⟩
    simp only [keywords, List.mem_cons, List.not_mem_nil, or_false] at hk
    rcases hk with rfl | rfl | rfl | rfl <;> (unfold Trimmed; decide)
  cases h with
  | same => exact ⟨hc, ht⟩
  | assign _ hk => exact kw _ hk
  | symAssign _ hk => exact kw _ hk

/-- One iteration on the next line of the file. -/
theorem logical_line {w : World} {file : Str} {s : PS} (ht : s.tok = []) {rest : List Str} {m : Nat} {d : Directive}
    {ds : List (Nat × Directive)} (h : Lines s.line rest ((m, d) :: ds)) :
    (∃ c rest' s1, c ≠ [] ∧ Trimmed c ∧ LineIs c d ∧ Lines m rest' ds ∧
      item w file s rest = item w file s1 rest' ∧
      getToken s1 rest' = ((lex c).1,
        { s with line := m, tok := (lex c).2, parseErr := s.parseErr || decide ((lex c).1.ty = .error) }, rest')) ∨
    (d = .bad ∧ Lines m [] ds ∧ item w file s rest = .more { s with line := m, tok := [], parseErr := true } []) := by
  generalize hx : (m, d) :: ds = x at h
  generalize hn : s.line = n at h
  induction h generalizing s with
  | nil => cases hx
  | @skip n l ls ds' hc _ ih =>
    subst hn
    have hg : getToken s (l :: ls) = getToken { s with line := s.line + 1 } ls := by
      unfold getToken fill
      rw [if_pos ht, if_pos ht]
      have := getLine_blanks (bl := [l]) (by simpa using hc) ls
      rw [List.singleton_append] at this
      rw [this]
      rcases getLine ls with ⟨o, r, k⟩
      cases o <;> simp [Nat.add_assoc]
    have hi : item w file s (l :: ls) = item w file { s with line := s.line + 1 } ls := by
      unfold item
      rw [hg]
    rw [hi]
    exact ih (s := { s with line := s.line + 1 }) ht hx rfl
  | @line n l ls c c' m' d' rest' ds' hc hne hno hlog hls _ =>
    cases hx
    subst hn
    obtain ⟨hne', htr'⟩ := normal_trimmed hno hne (clean_trimmed hc)
    have hg : getToken s (l :: ls) = getToken { s with tok := c, line := s.line + 1 } ls :=
      token_next ht (getLine_first hc hne ls) hne
    have hi : item w file s (l :: ls) = item w file { s with tok := c', line := s.line + 1 } ls := by
      rw [← normal_item hno { s with tok := c, line := s.line + 1 } rfl hne ls]
      unfold item
      rw [hg]
    rw [hi]
    rcases logical_item (w := w) (file := file) hlog { s with tok := c', line := s.line + 1 } rfl rfl hne' htr' with
      ⟨c3, h1, h2, h3, h4⟩ | ⟨h1, rfl, h3⟩
    · refine .inl ⟨c3, rest', _, h1, h2, h3, hls, h4, ?_⟩
      rw [token_rest (s := { s with line := m, tok := c3 }) h1]
    · exact .inr ⟨h1, hls, h3⟩

theorem getLine_end {n : Nat} {rest : List Str} (h : Lines n rest []) :
    getLine rest = (none, [], rest.length) := by
  generalize hx : ([] : List (Nat × Directive)) = x at h
  induction h with
  | nil => rfl
  | skip hc _ ih =>
    unfold getLine
    rw [if_pos (clean_of hc), ih hx]
    rfl
  | line => cases hx

theorem token_eof {s : PS} (ht : s.tok = []) {rest : List Str} (h : Lines s.line rest []) :
    getToken s rest = (⟨.eof, []⟩, { s with line := s.line + rest.length }, []) :=
  token_end ht (getLine_end h)

theorem item_bad {w : World} {file : Str} {s : PS} (ht : s.tok = []) {rest : List Str} {n : Nat}
    {ds : List (Nat × Directive)} (h : Lines s.line rest ((n, .bad) :: ds)) :
    ∃ rest', Lines n rest' ds ∧
      item w file s rest = .more { s with line := n, tok := [], parseErr := true } rest' := by
  rcases logical_line (w := w) (file := file) ht h with ⟨c, rest', s1, hc, htr, hl, hls, hitem, hg⟩ | ⟨_, h1, h2⟩
  case inr => exact ⟨[], h1, h2⟩
  refine ⟨rest', hls, hitem.trans ?_⟩
  cases hl with
  | noToken _ hn =>
    obtain ⟨h1, h2, h3, h4⟩ := hn
    rw [lex_other h1 h2 h3, scanWord_none h4] at hg
    rw [item_define hg (by simp) (fun hk => h4 c [] (keyword_key hk) (by simp))]
    simp [defineStep, syntaxError]
  | @flagFirst f r hf =>
    rw [lex_flag hf] at hg
    rw [item_define hg (by simp) (by
      simp only [keywords, List.mem_cons, List.not_mem_nil, or_false]
      rintro (h | h | h | h) <;> simp at h)]
    simp [defineStep, syntaxError]
  | @assignFirst v t hv hk =>
    rw [lex_assign, (stripsTo_iff _ _).1 hv] at hg
    rw [item_define hg (by simp) hk]
    simp [defineStep, syntaxError]
  | @symFirst v t hv hk =>
    rw [lex_sym, (stripsTo_iff _ _).1 hv] at hg
    rw [item_define hg (by simp) hk]
    simp [defineStep, syntaxError]
  | @noAssign rel p key fl flags c t hp hk hkw hfl hsp hd h1 h2 h3 =>
    have hlex := lex_other (s := c :: t) (by simpa using h1) h2 h3
    have hty : (lex (c :: t)).1.ty = .word ∨ (lex (c :: t)).1.ty = .error := by
      rw [hlex]; split <;> simp
    have hf : Follows c t := by
      refine ⟨hsp, by rcases hty with e | e <;> rw [e] <;> simp, ?_⟩
      intro x hx
      exact htr.2 x (getLast_append_cons.2 hx)
    rw [item_lead hp hk hkw hfl hf hd rfl hg, define_key hfl hf rfl]
    rcases hty with e | e <;> rw [e]
  | @noName d sp c t hd hsp hc' hdel hk =>
    have hkey : d ∈ keywords := by rcases hd with rfl | rfl <;> simp [keywords]
    have hls : ∀ x, (c :: t).getLast? = some x → isSpace x = false := by
      intro x hx
      exact htr.2 x (getLast_append_cons.2 hx)
    have e : d ++ sp ++ c :: t = d ++ (sp ++ c :: t) := by simp
    rw [e, lex_key (keyword_key hkey) hdel, trim_lead hsp (by simpa using hc') hls] at hg
    have hty : (lex (c :: t)).1.ty ≠ .word := lex_noKey hk
    rcases hd with rfl | rfl
    · rw [item_block hg (by simp) rfl]
      unfold blockStep
      rw [token_rest (by simp)]
      simp only [if_neg hty]
      simp [syntaxError]
    · rw [item_rel hg (by simp) rfl, token_rest (by simp)]
      simp only [defineStep, if_neg hty]
      simp [syntaxError]

theorem item_block_line {w : World} {file : Str} {s : PS} (ht : s.tok = []) {rest : List Str} {n : Nat} {name : Str}
    {ds : List (Nat × Directive)} (h : Lines s.line rest ((n, .block name) :: ds)) :
    ∃ rest', Lines n rest' ds ∧
      item w file s rest = .more { s with line := n, tok := [], blocks := ⟨name, file, n, s.context⟩ :: s.blocks,
                                          context := s.context ++ (name ++ c!":") } rest' := by
  rcases logical_line (w := w) (file := file) ht h with ⟨c, rest', s1, hc, htr, hl, hls, hitem, hg⟩ | ⟨h0, _, _⟩
  case inr => cases h0
  refine ⟨rest', hls, hitem.trans ?_⟩
  cases hl with
  | @block sp _ junk hsp hne hk hd =>
    have e : c!"block" ++ sp ++ name ++ junk = c!"block" ++ (sp ++ (name ++ junk)) := by simp
    have hl : ∀ x, (name ++ junk).getLast? = some x → isSpace x = false := by
      refine last_suffix (a := c!"block" ++ sp) ?_ (by simpa using htr.2)
      intro e; exact key_ne_nil hk (List.append_eq_nil_iff.1 e).1
    rw [e, lex_key (keyword_key (by simp [keywords])) (blank_delim hsp hne _),
      trim_lead hsp (key_head_nonspace hk _) hl] at hg
    rw [item_block hg (by simp) rfl]
    unfold blockStep
    rw [token_rest (by simp only; intro e; exact key_ne_nil hk (List.append_eq_nil_iff.1 e).1)]
    simp only [lex_key hk hd]
    simp [blockSep]

theorem item_end_line {w : World} {file : Str} {s : PS} (ht : s.tok = []) {rest : List Str} {n : Nat}
    {ds : List (Nat × Directive)} (h : Lines s.line rest ((n, .endblock) :: ds)) :
    ∃ rest', Lines n rest' ds ∧
      item w file s rest = match s.blocks with
        | [] => .throw { s with line := n, tok := [] } (.notParsed file)
        | b :: bs => .more { s with line := n, blocks := bs, context := b.prev, tok := [] } rest' := by
  rcases logical_line (w := w) (file := file) ht h with ⟨c, rest', s1, hc, htr, hl, hls, hitem, hg⟩ | ⟨h0, _, _⟩
  case inr => cases h0
  refine ⟨rest', hls, hitem.trans ?_⟩
  cases hl with
  | @endblock junk hd =>
    rw [lex_key (keyword_key (by simp [keywords])) hd] at hg
    rw [item_end hg (by simp) rfl]
    unfold endblockStep
    simp only [flush]
    cases s.blocks <;> simp

theorem item_incl_line {w : World} {file : Str} {s : PS} (ht : s.tok = []) {rest : List Str} {n : Nat} {name : Str}
    {ds : List (Nat × Directive)} (h : Lines s.line rest ((n, .incl name) :: ds)) :
    ∃ rest', Lines n rest' ds ∧ item w file s rest = includeStep w { s with line := n, tok := name } rest' := by
  rcases logical_line (w := w) (file := file) ht h with ⟨c, rest', s1, hc, htr, hl, hls, hitem, hg⟩ | ⟨h0, _, _⟩
  case inr => cases h0
  refine ⟨rest', hls, hitem.trans ?_⟩
  cases hl with
  | @incl v _ hd hs =>
    rw [lex_key (keyword_key (by simp [keywords])) hd, (stripsTo_iff _ _).1 hs] at hg
    rw [item_incl hg (by simp) rfl]
    simp

theorem item_entry_line {w : World} {file : Str} {s : PS} (ht : s.tok = []) {rest : List Str} {n : Nat}
    {rel : Bool} {key rhs : Str} {fs : List Str} {ds : List (Nat × Directive)}
    (h : Lines s.line rest ((n, .entry rel key fs rhs) :: ds)) :
    ∃ rest', Lines n rest' ds ∧ item w file s rest =
      assignStep w file rel (fs.any (IsRO ·)) key rhs
        { s with line := n, tok := [], parseErr := s.parseErr || fs.any (¬ IsRO ·) } rest' := by
  rcases logical_line (w := w) (file := file) ht h with ⟨c, rest', s1, hc, htr, hl, hls, hitem, hg⟩ | ⟨h0, _, _⟩
  case inr => cases h0
  refine ⟨rest', hls, hitem.trans ?_⟩
  cases hl with
  | @entry _ p _ fl _ v _ hp hk hkw hfl hv =>
    have hlex : lex ('=' :: v) = (⟨.assign, trim v⟩, []) := lex_assign v
    have hf : Follows '=' v := by
      refine ⟨by decide, by rw [hlex]; simp, ?_⟩
      intro x hx
      have : p ++ key ++ fl ++ c!"=" ++ v = (p ++ key ++ fl) ++ '=' :: v := by simp
      exact htr.2 x (by rw [this]; exact getLast_append_cons.2 hx)
    have hd : Delim (fl ++ '=' :: v) := flags_delim hfl (delim_of_head (by
      intro c hc; simp at hc; subst hc; decide))
    rw [item_lead (txt := p ++ key ++ fl ++ c!"=" ++ v) hp hk hkw hfl hf hd (by simp) hg, define_key hfl hf rfl, hlex]
    simp only [(stripsTo_iff _ _).1 hv]

theorem item_sym_line {w : World} {file : Str} {s : PS} (ht : s.tok = []) {rest : List Str} {n : Nat}
    {key rhs : Str} {fs : List Str} {ds : List (Nat × Directive)}
    (h : Lines s.line rest ((n, .sym key fs rhs) :: ds)) :
    ∃ rest', Lines n rest' ds ∧ item w file s rest =
      .more { s with line := n, tok := [], parseErr := s.parseErr || fs.any (¬ IsRO ·),
                     symtab := symStep s.symtab (.add key (expandToken (types w s) rhs)) } rest' := by
  rcases logical_line (w := w) (file := file) ht h with ⟨c, rest', s1, hc, htr, hl, hls, hitem, hg⟩ | ⟨h0, _, _⟩
  case inr => cases h0
  refine ⟨rest', hls, hitem.trans ?_⟩
  cases hl with
  | @sym rel p _ fl _ v _ hp hk hkw hfl hv =>
    have hlex : lex (':' :: '=' :: v) = (⟨.localAssign, trim v⟩, []) := lex_sym v
    have hf : Follows ':' ('=' :: v) := by
      refine ⟨by decide, by rw [hlex]; simp, ?_⟩
      intro x hx
      have : p ++ key ++ fl ++ c!":=" ++ v = (p ++ key ++ fl) ++ ':' :: '=' :: v := by simp
      exact htr.2 x (by rw [this]; exact getLast_append_cons.2 hx)
    have hd : Delim (fl ++ ':' :: '=' :: v) := flags_delim hfl (delim_sym v)
    rw [item_lead (txt := p ++ key ++ fl ++ c!":=" ++ v) hp hk hkw hfl hf hd (by simp) hg, define_key hfl hf rfl, hlex]
    simp only [(stripsTo_iff _ _).1 hv]
    rfl

theorem item_eof {w : World} {file : Str} {s : PS} (ht : s.tok = []) {rest : List Str} (h : Lines s.line rest []) :
    item w file s rest = .eof { s with line := s.line + rest.length } := by
  unfold item
  rw [token_eof ht h]
  simp

end Vital.Parser
