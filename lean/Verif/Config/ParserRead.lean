import Verif.Config.ParserTotal
/-
  The meaning of a text is unique, and can be computed.

  `readLines` computes the description `Lines` of a text; used for uniqueness and for concrete examples.
-/
namespace Vital.Parser
open Vital Vital.Config Vital.Expand Vital.Sys

/-! ### Classifying a line -/

/-- Flags at the start of `r` (white space removed) and what follows them. -/
def flagsOf : Nat → Str → List Str × Str
  | 0, r => ([], r)
  | n + 1, r =>
    match lex r with
    | (⟨.flag, f⟩, r') => ((f.drop 1).dropLast :: (flagsOf n r').1, (flagsOf n r').2)
    | _ => ([], r)

/-- What a definition says from the key on; `none` when it is incomplete. -/
def defineOf (rel : Bool) (k r : Str) : Option Directive :=
  match flagsOf r.length r with
  | (fs, t) =>
    if t = [] then none
    else
      match (lex t).1 with
      | ⟨.assign, v⟩ => some (.entry rel k fs v)
      | ⟨.localAssign, v⟩ => some (.sym k fs v)
      | _ => some .bad

/-- What a line beginning with the word `k` says, `r` being the rest of it. -/
def wordOf (k r : Str) : Option Directive :=
  if k = c!"include" then some (.incl r)
  else if k = c!"block" then
    if r = [] then none
    else match (lex r).1 with
      | ⟨.word, n⟩ => some (.block n)
      | _ => some .bad
  else if k = c!"endblock" then some .endblock
  else if k = c!"relativepath" then
    if r = [] then none
    else match lex r with
      | (⟨.word, n⟩, r') => defineOf true n r'
      | _ => some .bad
  else defineOf false k r

/-- What a line says; `none` when it is incomplete. -/
def classify (c : Str) : Option Directive :=
  match lex c with
  | (⟨.word, k⟩, r) => wordOf k r
  | (⟨.assign, v⟩, _) => if v ∈ keywords then wordOf v [] else some .bad
  | (⟨.localAssign, v⟩, _) => if v ∈ keywords then wordOf v [] else some .bad
  | _ => some .bad

theorem flagsOf_stop {r : Str} (h : (lex r).1.ty ≠ .flag) : ∀ n, flagsOf n r = ([], r) := by
  intro n
  cases n with
  | zero => rfl
  | succ n =>
    unfold flagsOf
    rcases e : lex r with ⟨⟨ty, v⟩, r'⟩
    rw [e] at h
    cases ty <;> first | rfl | exact absurd rfl h

theorem lex_nil : lex [] = (⟨.error, []⟩, []) := by decide

theorem flagsOf_flags {fl : Str} {fs : List Str} (hfl : Flags fl fs) (t : Str)
    (hh : ∀ c, t.head? = some c → isSpace c = false) (hl : ∀ x, (fl ++ t).getLast? = some x → isSpace x = false)
    (hnf : (lex t).1.ty ≠ .flag) : ∀ n, (trim (fl ++ t)).length ≤ n → flagsOf n (trim (fl ++ t)) = (fs, t) := by
  induction hfl with
  | @nil sp hsp =>
    intro n hn
    have : trim (sp ++ t) = t := by
      cases t with
      | nil => rw [List.append_nil]; exact trim_blank hsp
      | cons a t => exact trim_lead hsp hh (last_suffix (by simp) hl)
    rw [this]
    exact flagsOf_stop hnf n
  | @cons sp f t' fs' hsp hf h' ih =>
    intro n hn
    have e : sp ++ c!"[" ++ f ++ c!"]" ++ t' ++ t = sp ++ c!"[" ++ f ++ c!"]" ++ (t' ++ t) := by simp
    rw [e] at hl hn ⊢
    rw [lead_flag hsp hl] at hn ⊢
    obtain ⟨n, rfl⟩ : ∃ m, n = m + 1 := ⟨n - 1, by simp at hn; omega⟩
    have hl' : ∀ x, (t' ++ t).getLast? = some x → isSpace x = false := flag_tail hl
    have := ih hl' n (by
      have := trim_length_le (t' ++ t)
      simp at hn this ⊢; omega)
    conv => lhs; unfold flagsOf
    rw [lex_flag hf]
    simp only [this]
    simp

theorem defineOf_text {rel : Bool} {k fl : Str} {fs : List Str} (hfl : Flags fl fs) {t : Str}
    (hh : ∀ c, t.head? = some c → isSpace c = false) (hl : ∀ x, (fl ++ t).getLast? = some x → isSpace x = false)
    (hnf : (lex t).1.ty ≠ .flag) : defineOf rel k (trim (fl ++ t)) =
      if t = [] then none
      else
        match (lex t).1 with
        | ⟨.assign, v⟩ => some (.entry rel k fs v)
        | ⟨.localAssign, v⟩ => some (.sym k fs v)
        | _ => some .bad := by
  unfold defineOf
  rw [flagsOf_flags hfl t hh hl hnf _ (Nat.le_refl _)]

theorem wordOf_key {k r : Str} (h : k ∉ keywords) : wordOf k r = defineOf false k r := by
  obtain ⟨h1, h2, h3, h4⟩ := not_kw h
  unfold wordOf
  rw [if_neg h1, if_neg h2, if_neg h3, if_neg h4]

theorem classify_lead {rel : Bool} {p key r : Str} (hp : Lead rel p) (hk : Key key) (hkw : rel = false → key ∉ keywords)
    (hd : Delim r) (hl : Trimmed (p ++ key ++ r)) : classify (p ++ key ++ r) = defineOf rel key (trim r) := by
  cases rel with
  | false =>
    have hp' : p = [] := hp
    subst hp'
    unfold classify
    rw [List.nil_append, lex_key hk hd]
    exact wordOf_key (hkw rfl)
  | true =>
    obtain ⟨sp, hsp, hne, rfl⟩ := hp
    have e : c!"relativepath" ++ sp ++ key ++ r = c!"relativepath" ++ (sp ++ (key ++ r)) := by simp
    have ht : trim (sp ++ (key ++ r)) = key ++ r := by
      apply trim_lead hsp (key_head_nonspace hk _)
      refine last_suffix (a := c!"relativepath" ++ sp) (by intro e; exact key_ne_nil hk (List.append_eq_nil_iff.1 e).1) ?_
      simpa using hl.2
    unfold classify
    rw [e, lex_key (keyword_key (by simp [keywords])) (blank_delim hsp hne _), ht]
    simp only
    unfold wordOf
    rw [if_neg (by decide), if_neg (by decide), if_neg (by decide), if_pos rfl,
      if_neg (by intro e; exact key_ne_nil hk (List.append_eq_nil_iff.1 e).1), lex_key hk hd]

theorem classify_line {c : Str} {d : Directive} (h : LineIs c d) (ht : Trimmed c) : classify c = some d := by
  cases h with
  | @entry rel p key fl flags v rhs hp hk hkw hfl hv =>
    have e : p ++ key ++ fl ++ c!"=" ++ v = p ++ key ++ (fl ++ '=' :: v) := by simp
    rw [e] at ht ⊢
    have hd : Delim (fl ++ '=' :: v) := flags_delim hfl (delim_of_head (by intro c hc; simp at hc; subst hc; decide))
    have hlex : lex ('=' :: v) = (⟨.assign, trim v⟩, []) := lex_assign v
    rw [classify_lead hp hk hkw hd ht, defineOf_text hfl (by intro c hc; simp at hc; subst hc; decide)
      (last_suffix (by simp) ht.2) (by rw [hlex]; simp), hlex, (stripsTo_iff _ _).1 hv]
    simp
  | @sym rel p key fl flags v rhs hp hk hkw hfl hv =>
    have e : p ++ key ++ fl ++ c!":=" ++ v = p ++ key ++ (fl ++ ':' :: '=' :: v) := by simp
    rw [e] at ht ⊢
    have hd : Delim (fl ++ ':' :: '=' :: v) := flags_delim hfl (delim_sym v)
    have hlex : lex (':' :: '=' :: v) = (⟨.localAssign, trim v⟩, []) := lex_sym v
    rw [classify_lead hp hk hkw hd ht, defineOf_text hfl (by intro c hc; simp at hc; subst hc; decide)
      (last_suffix (by simp) ht.2) (by rw [hlex]; simp), hlex, (stripsTo_iff _ _).1 hv]
    simp
  | @block sp name junk hsp hne hk hd =>
    have e : c!"block" ++ sp ++ name ++ junk = c!"block" ++ (sp ++ (name ++ junk)) := by simp
    have hl : ∀ x, (name ++ junk).getLast? = some x → isSpace x = false := by
      refine last_suffix (a := c!"block" ++ sp) ?_ (by simpa using ht.2)
      intro e; exact key_ne_nil hk (List.append_eq_nil_iff.1 e).1
    unfold classify
    rw [e, lex_key (keyword_key (by simp [keywords])) (blank_delim hsp hne _),
      trim_lead hsp (key_head_nonspace hk _) hl]
    simp only
    unfold wordOf
    rw [if_neg (by decide), if_pos rfl, if_neg (by intro e; exact key_ne_nil hk (List.append_eq_nil_iff.1 e).1), lex_key hk hd]
  | @endblock junk hd =>
    unfold classify
    rw [lex_key (keyword_key (by simp [keywords])) hd]
    rfl
  | @incl v name hd hs =>
    unfold classify
    rw [lex_key (keyword_key (by simp [keywords])) hd, (stripsTo_iff _ _).1 hs]
    rfl
  | noToken _ hn =>
    obtain ⟨h1, h2, h3, h4⟩ := hn
    unfold classify
    rw [lex_other h1 h2 h3, scanWord_none h4]
  | @flagFirst f r hf =>
    unfold classify
    rw [lex_flag hf]
  | @assignFirst v t hv hk =>
    unfold classify
    rw [lex_assign, (stripsTo_iff _ _).1 hv]
    simp only
    rw [if_neg hk]
  | @symFirst v t hv hk =>
    unfold classify
    rw [lex_sym, (stripsTo_iff _ _).1 hv]
    simp only
    rw [if_neg hk]
  | @noAssign rel p key fl flags c t hp hk hkw hfl hsp hd h1 h2 h3 =>
    have e : p ++ key ++ fl ++ c :: t = p ++ key ++ (fl ++ c :: t) := by simp
    rw [e] at ht ⊢
    have hlex := lex_other (s := c :: t) (by simpa using h1) h2 h3
    have hty : (lex (c :: t)).1.ty = .word ∨ (lex (c :: t)).1.ty = .error := by
      rw [hlex]; split <;> simp
    rw [classify_lead hp hk hkw hd ht, defineOf_text hfl (by simpa using hsp) (last_suffix (by simp) ht.2)
      (by rcases hty with e | e <;> rw [e] <;> simp), if_neg (by simp)]
    rcases e2 : (lex (c :: t)).1 with ⟨ty, v⟩
    rw [e2] at hty
    rcases hty with rfl | rfl <;> rfl
  | @noName d sp c t hd hsp hc' hdel hk =>
    have hkey : d ∈ keywords := by rcases hd with rfl | rfl <;> simp [keywords]
    have hls : ∀ x, (c :: t).getLast? = some x → isSpace x = false := by
      intro x hx
      exact ht.2 x (getLast_append_cons.2 hx)
    have e : d ++ sp ++ c :: t = d ++ (sp ++ c :: t) := by simp
    have hty : (lex (c :: t)).1.ty ≠ .word := lex_noKey hk
    unfold classify
    rw [e, lex_key (keyword_key hkey) hdel, trim_lead hsp (by simpa using hc') hls]
    simp only
    unfold wordOf
    rcases e2 : lex (c :: t) with ⟨⟨ty, v⟩, r'⟩
    rw [e2] at hty
    rcases hd with rfl | rfl
    · rw [if_neg (by decide), if_pos rfl, if_neg (by simp)]
      simp only
      cases ty <;> first | rfl | exact absurd rfl hty
    · rw [if_neg (by decide), if_neg (by decide), if_neg (by decide), if_pos rfl, if_neg (by simp)]
      cases ty <;> first | rfl | exact absurd rfl hty

theorem classify_incomplete {c : Str} (h : Incomplete c) (ht : Trimmed c) : classify c = none := by
  cases h with
  | block => decide +kernel
  | rel => decide +kernel
  | @key rel p key fl flags hp hk hkw hfl =>
    have hd : Delim fl := by
      cases hfl with
      | @nil sp hsp =>
        apply delim_of_head
        intro c hc; cases fl with
        | nil => simp at hc
        | cons a t => simp at hc; subst hc; exact space_not_word (hsp a (by simp))
      | @cons sp f t' fs' hsp _ _ =>
        apply delim_of_head
        intro c hc
        cases sp with
        | nil => simp at hc; subst hc; decide
        | cons a t => simp at hc; subst hc; exact space_not_word (hsp a (by simp))
    rw [classify_lead hp hk hkw hd ht]
    have := defineOf_text (rel := rel) (k := key) hfl (t := []) (by simp) (by
      rw [List.append_nil]
      cases fl with
      | nil => simp
      | cons a t => exact last_suffix (by simp) ht.2) (by rw [lex_nil]; simp)
    rw [List.append_nil] at this
    rw [this]
    rfl

theorem classify_keyword {k : Str} (h : k ∈ keywords) : classify k = wordOf k [] := by
  unfold classify
  have := lex_key (r := []) (keyword_key h) (delim_of_head (by simp))
  rw [List.append_nil, trim_blank (s := []) (by simp [Blank])] at this
  rw [this]

theorem classify_normal {c c' : Str} (h : Normal c c') : classify c = classify c' := by
  cases h with
  | same => rfl
  | @assign v k hv hk =>
    rw [classify_keyword hk]
    unfold classify
    rw [lex_assign, (stripsTo_iff _ _).1 hv]
    simp only
    rw [if_pos hk]
  | @symAssign v k hv hk =>
    rw [classify_keyword hk]
    unfold classify
    rw [lex_sym, (stripsTo_iff _ _).1 hv]
    simp only
    rw [if_pos hk]

/-! ### Reading all lines -/

/-- The text to which an incomplete line is joined: a peculiar form counts as its directive. -/
def normalize (c : Str) : Str :=
  match lex c with
  | (⟨.assign, v⟩, _) => if v ∈ keywords then v else c
  | (⟨.localAssign, v⟩, _) => if v ∈ keywords then v else c
  | _ => c

theorem normalize_letter {c : Str} (h : c.head?.any (fun a => decide (a ∈ letters)) = true) : normalize c = c := by
  unfold normalize
  cases c with
  | nil => rw [lex_nil]
  | cons a t =>
    simp only [List.head?_cons, Option.any_some, decide_eq_true_eq] at h
    have h1 : ∀ c ∈ letters, c ≠ ':' ∧ c ≠ '=' := by decide +kernel
    obtain ⟨n1, n2⟩ := h1 a h
    have : lex (a :: t) = match scanFlag (a :: t) with
        | some (f, rest) => (⟨.flag, f⟩, trim rest)
        | none => match scanWord (a :: t) with
          | some (v, rest) => (⟨.word, v⟩, trim rest)
          | none => (⟨.error, a :: t⟩, []) := by
      conv => lhs; unfold lex
      rw [if_neg, if_neg (by simpa using n2)]
      · rfl
      · intro e
        obtain ⟨t', e⟩ := (startsWith_iff _ _).1 e
        simp at e
        exact n1 e.1
    rw [this]
    cases scanFlag (a :: t) with
    | some x => rfl
    | none => cases scanWord (a :: t) <;> rfl

theorem normalize_of {c c' : Str} (h : Normal c c') (hc : (∃ d, LineIs c' d) ∨ Incomplete c') (ht : Trimmed c') :
    normalize c = c' := by
  cases h with
  | @assign v k hv hk =>
    unfold normalize
    rw [lex_assign, (stripsTo_iff _ _).1 hv]
    simp only
    rw [if_pos hk]
  | @symAssign v k hv hk =>
    unfold normalize
    rw [lex_sym, (stripsTo_iff _ _).1 hv]
    simp only
    rw [if_pos hk]
  | same =>
    rcases hc with ⟨d, hd⟩ | hi
    · have hletter : ∀ p key r : Str, ∀ rel, Lead rel p → Key key → (p ++ key ++ r).head?.any (fun a => decide (a ∈ letters)) = true := by
        intro p key r rel hp hk
        cases rel with
        | false =>
          have hp' : p = [] := hp
          subst hp'
          obtain ⟨a, ha, hal⟩ := hk.2.1
          cases key with
          | nil => simp at ha
          | cons b k => simp at ha; subst ha; simp [hal]
        | true =>
          obtain ⟨sp, _, _, rfl⟩ := hp
          show decide ('r' ∈ letters) = true
          decide +kernel
      cases hd with
      | entry hp hk _ _ _ =>
        apply normalize_letter
        rw [List.append_assoc, List.append_assoc]; exact hletter _ _ _ _ hp hk
      | sym hp hk _ _ _ =>
        apply normalize_letter
        rw [List.append_assoc, List.append_assoc]; exact hletter _ _ _ _ hp hk
      | noAssign hp hk _ _ _ _ _ _ _ =>
        apply normalize_letter
        rw [List.append_assoc]; exact hletter _ _ _ _ hp hk
      | block => apply normalize_letter; show decide ('b' ∈ letters) = true; decide +kernel
      | endblock => apply normalize_letter; show decide ('e' ∈ letters) = true; decide +kernel
      | incl => apply normalize_letter; show decide ('i' ∈ letters) = true; decide +kernel
      | noName hd' =>
        apply normalize_letter
        rcases hd' with rfl | rfl
        · show decide ('b' ∈ letters) = true; decide +kernel
        · show decide ('r' ∈ letters) = true; decide +kernel
      | noToken _ hn =>
        unfold normalize
        rw [lex_other hn.1 hn.2.1 hn.2.2.1, scanWord_none hn.2.2.2]
      | flagFirst hf => unfold normalize; rw [lex_flag hf]
      | @assignFirst v t hv hk =>
        unfold normalize
        rw [lex_assign, (stripsTo_iff _ _).1 hv]
        simp only
        rw [if_neg hk]
      | @symFirst v t hv hk =>
        unfold normalize
        rw [lex_sym, (stripsTo_iff _ _).1 hv]
        simp only
        rw [if_neg hk]
    · have := incomplete_head hi []
      rw [List.append_nil] at this
      exact normalize_letter this

/-- Read the lines: `p` is the incomplete text so far, if any. -/
def readLines : Nat → Option Str → List Str → List (Nat × Directive)
  | _, none, [] => []
  | n, some _, [] => [(n, .bad)]
  | n, p, l :: ls =>
    if cleanLine l = [] then readLines (n + 1) p ls
    else
      let c := match p with
        | none => normalize (cleanLine l)
        | some c0 => c0 ++ c!" " ++ cleanLine l
      match classify c with
      | some d => (n + 1, d) :: readLines (n + 1) none ls
      | none => readLines (n + 1) (some c) ls

theorem readLines_blanks {bl : List Str} (h : ∀ x ∈ bl, CleansTo x []) (n : Nat) (p : Option Str) (ls : List Str) :
    readLines n p (bl ++ ls) = readLines (n + bl.length) p ls := by
  induction bl generalizing n with
  | nil => rfl
  | cons l bl ih =>
    rw [List.cons_append]
    have hc := clean_of (h l (by simp))
    have e : readLines n p (l :: (bl ++ ls)) = readLines (n + 1) p (bl ++ ls) := by
      cases p <;> (conv => lhs; unfold readLines) <;> rw [if_pos hc]
    rw [e, ih (fun x hx => h x (by simp [hx]))]
    congr 1
    simp; omega

/-- Reading on from a line whose text is `c`. -/
def readFrom (n : Nat) (c : Str) (ls : List Str) : List (Nat × Directive) :=
  match classify c with
  | some d => (n, d) :: readLines n none ls
  | none => readLines n (some c) ls

theorem read_logical {n : Nat} {c : Str} {ls : List Str} {m : Nat} {d : Directive} {rest : List Str}
    (h : Logical n c ls m d rest) : c ≠ [] → Trimmed c → readFrom n c ls = (m, d) :: readLines m none rest := by
  induction h with
  | whole hl =>
    intro hc ht
    unfold readFrom
    rw [classify_line hl ht]
  | @join n c bl l c2 ls m d rest hi hbl hl hne h ih =>
    intro hc ht
    have hcl := clean_of hl
    rw [← ih (by simp) (trimmed_join hc hne ht (clean_trimmed hl))]
    unfold readFrom
    rw [classify_incomplete hi ht]
    simp only
    rw [readLines_blanks hbl]
    conv => lhs; unfold readLines
    rw [if_neg (by rw [hcl]; exact hne), hcl]
    simp only [Nat.add_assoc]
  | @cut n c ls hi hbl =>
    intro hc ht
    unfold readFrom
    rw [classify_incomplete hi ht]
    simp only
    have := readLines_blanks hbl n (some c) []
    rw [List.append_nil] at this
    rw [this]
    rfl

theorem logical_start {n : Nat} {c : Str} {ls : List Str} {m : Nat} {d : Directive} {rest : List Str}
    (h : Logical n c ls m d rest) : (∃ d, LineIs c d) ∨ Incomplete c := by
  cases h with
  | whole h => exact .inl ⟨_, h⟩
  | join h => exact .inr h
  | cut h => exact .inr h

/-- The meaning of a sequence of lines is unique. -/
theorem read_lines {n : Nat} {ls : List Str} {ds : List (Nat × Directive)} (h : Lines n ls ds) :
    readLines n none ls = ds := by
  induction h with
  | nil => rfl
  | @skip n l ls ds hc _ ih =>
    conv => lhs; unfold readLines
    rw [if_pos (clean_of hc)]
    exact ih
  | @line n l ls c c' m d rest ds hc hne hno hlog _ ih =>
    obtain ⟨hne', htr'⟩ := normal_trimmed hno hne (clean_trimmed hc)
    have hcl := clean_of hc
    have := read_logical hlog hne' htr'
    rw [ih] at this
    rw [← this]
    conv => lhs; unfold readLines
    rw [if_neg (by rw [hcl]; exact hne), hcl]
    simp only [normalize_of hno (logical_start hlog) htr']
    rfl

theorem lines_iff {n : Nat} {ls : List Str} {ds : List (Nat × Directive)} : Lines n ls ds ↔ ds = readLines n none ls := by
  constructor
  · intro h; exact (read_lines h).symm
  · rintro rfl
    obtain ⟨ds, h⟩ := lines_total _ n ls (Nat.le_refl _)
    rw [read_lines h]
    exact h

theorem text_iff {c : Str} {ls : List Str} : TextIs c ls ↔ ls = fileLines c := by
  constructor
  · intro h; exact (fileLines_of h).symm
  · rintro rfl
    obtain ⟨ls, h⟩ := text_total _ c (Nat.le_refl _)
    rw [fileLines_of h]
    exact h

end Vital.Parser
