import Verif.Config.ParserSpec
/-
  Lexical lemmas: what `cleanLine`, `fileLines` and `lex` do on text described by the specification.
-/
namespace Vital.Parser
open Vital Vital.Config Vital.Expand Vital.Sys

/-! ### Characters -/

theorem isWordMid_iff (c : Char) : isWordMid c = true ↔ c ∈ wordChars :=
  ascii_ext (fun c h => by
    simp only [isWordMid, Bool.or_eq_true, beq_iff_eq] at h
    rcases h with ((((((h | h) | rfl) | rfl) | rfl) | rfl) | rfl)
    · exact alpha_lt h
    · exact digit_lt h
    all_goals decide) (by decide +kernel) (by decide +kernel) c

theorem isFlagChar_iff (c : Char) : isFlagChar c = true ↔ c ∈ letters ++ c!"," :=
  ascii_ext (fun c h => by
    simp only [isFlagChar, Bool.or_eq_true, beq_iff_eq] at h
    rcases h with h | rfl
    · exact alpha_lt h
    · decide) (by decide +kernel) (by decide +kernel) c

theorem letter_word {c : Char} (h : c ∈ letters) : c ∈ wordChars := by simp [wordChars, h]

theorem space_not_word {c : Char} (h : isSpace c = true) : c ∉ wordChars := by
  intro hc
  have : ∀ c ∈ wordChars, isSpace c = false := by decide +kernel
  rw [this c hc] at h; simp at h

theorem word_not_space {c : Char} (h : c ∈ wordChars) : isSpace c = false := by
  cases e : isSpace c with
  | false => rfl
  | true => exact absurd h (space_not_word e)

/-! ### Trimming -/

theorem trim_blank {s : Str} (h : Blank s) : trim s = [] := by
  have h1 : ∀ t : Str, Blank t → t.dropWhile isSpace = [] := by
    intro t ht
    induction t with
    | nil => rfl
    | cons a t ih =>
      rw [List.dropWhile_cons_of_pos (ht a (by simp))]
      exact ih (fun c hc => ht c (by simp [hc]))
  unfold trim rtrim
  rw [h1 s.reverse (fun c hc => h c (by simpa using hc))]
  rfl

theorem ltrim_blank_append {sp : Str} (h : Blank sp) (x : Str) : ltrim (sp ++ x) = ltrim x := by
  induction sp with
  | nil => rfl
  | cons a sp ih =>
    unfold ltrim
    rw [List.cons_append, List.dropWhile_cons_of_pos (h a (by simp))]
    exact ih (fun c hc => h c (by simp [hc]))

theorem rtrim_append_blank {sp : Str} (h : Blank sp) (x : Str) : rtrim (x ++ sp) = rtrim x := by
  unfold rtrim
  rw [List.reverse_append]
  congr 1
  exact ltrim_blank_append (fun c hc => h c (by simpa using hc)) _

theorem trim_strip {l t r : Str} (hl : Blank l) (hr : Blank r) (ht : Trimmed t) : trim (l ++ t ++ r) = t := by
  unfold trim
  rw [rtrim_append_blank hr]
  cases t with
  | nil =>
    rw [List.append_nil]
    have := trim_blank hl
    unfold trim at this
    exact this
  | cons a t =>
    have h2 : ∀ c, (l ++ a :: t).getLast? = some c → isSpace c = false := by
      intro c hc
      rw [List.getLast?_append] at hc
      cases e : (a :: t).getLast? with
      | none => simp at e
      | some z =>
        rw [e] at hc
        simp only [Option.some_or, Option.some.injEq] at hc
        exact hc ▸ ht.2 z e
    rw [rtrim_eq_self h2, ltrim_blank_append hl, ltrim_eq_self ht.1]

theorem stripsTo_iff (v t : Str) : StripsTo v t ↔ trim v = t := by
  constructor
  · rintro ⟨l, r, hl, hr, ht, rfl⟩
    exact trim_strip hl hr ht
  · rintro rfl
    obtain ⟨l, r, hl, hr, e⟩ := trim_spec v
    exact ⟨l, r, hl, hr, trim_trimmed v, e⟩

/-- Trim of text that ends in a non-blank. -/
theorem trim_lead {sp x : Str} (h : Blank sp) (hx : ∀ c, x.head? = some c → isSpace c = false)
    (hl : ∀ c, x.getLast? = some c → isSpace c = false) : trim (sp ++ x) = x := by
  have := trim_strip (r := []) h (by intro c hc; simp at hc) (t := x) ⟨hx, hl⟩
  simpa using this

/-! ### Cleaning a line -/

theorem cleanLine_eq (l : Str) :
    cleanLine l = if (trim l).contains '#' then trim ((trim l).takeWhile (· != '#')) else trim l := by
  unfold cleanLine
  split
  · rename_i h; rw [h]; rfl
  · rfl

theorem takeWhile_stop {p : Char → Bool} {a : Str} {c : Char} {b : Str} (h : ∀ x ∈ a, p x = true)
    (hc : p c = false) : (a ++ c :: b).takeWhile p = a := (takeWhile_append_stop h hc).1

theorem blank_hash {s : Str} (h : Blank s) : '#' ∉ s := by
  intro hc
  have := h _ hc
  revert this
  decide

theorem clean_of {l c : Str} (h : CleansTo l c) : cleanLine l = c := by
  obtain ⟨b1, b2, com, rfl, h1, h2, ht, hh, hc⟩ := h
  rw [cleanLine_eq]
  cases com with
  | nil =>
    rw [List.append_nil, trim_strip h1 h2 ht, if_neg]
    simpa using hh
  | cons a com =>
    have ha : a = '#' := by rcases hc with h | h <;> simp at h; exact h
    subst ha
    -- the trimmed line is (rest of the blanks) c b2 '#' ...
    obtain ⟨l', r', hl', hr', e⟩ := trim_spec (b1 ++ c ++ b2 ++ '#' :: com)
    generalize ht' : trim (b1 ++ c ++ b2 ++ '#' :: com) = t at *
    have hmem : '#' ∈ t := by
      have : '#' ∈ l' ++ t ++ r' := by rw [← e]; simp
      simp only [List.mem_append] at this
      rcases this with (h | h) | h
      · exact absurd h (blank_hash hl')
      · exact h
      · exact absurd h (blank_hash hr')
    rw [if_pos (by simpa using hmem)]
    -- text before '#'
    have hb : (l' ++ t ++ r').takeWhile (· != '#') = l' ++ t.takeWhile (· != '#') := by
      have key : ∀ (x y : Str), '#' ∉ x → (x ++ y).takeWhile (· != '#') = x ++ y.takeWhile (· != '#') := by
        intro x y hx
        induction x with
        | nil => rfl
        | cons a x ih =>
          simp only [List.mem_cons, not_or] at hx
          rw [List.cons_append, List.takeWhile_cons_of_pos (by simpa using fun e => hx.1 e.symm), ih hx.2]
          rfl
      rw [List.append_assoc, key _ _ (blank_hash hl')]
      congr 1
      clear e ht'
      induction t with
      | nil => simp at hmem
      | cons b t ih =>
        by_cases hb : b = '#'
        · subst hb; simp
        · rw [List.cons_append, List.takeWhile_cons_of_pos (by simpa using hb),
            List.takeWhile_cons_of_pos (by simpa using hb)]
          congr 1
          have hm : '#' ∈ t := by
            rcases List.mem_cons.1 hmem with h | h
            · exact absurd h.symm hb
            · exact h
          exact ih hm
    have ha : (b1 ++ c ++ b2 ++ '#' :: com).takeWhile (· != '#') = b1 ++ c ++ b2 := by
      apply takeWhile_stop
      · intro x hx
        have : '#' ∉ b1 ++ c ++ b2 := by
          simp only [List.mem_append, not_or]
          exact ⟨⟨blank_hash h1, hh⟩, blank_hash h2⟩
        simp only [bne_iff_ne, ne_eq]
        rintro rfl
        exact this hx
      · simp
    rw [e, hb] at ha
    have : trim (l' ++ t.takeWhile (· != '#')) = c := by rw [ha]; exact trim_strip h1 h2 ht
    rw [← this]
    -- blanks in front do not matter
    unfold trim
    have hx : ∀ (x : Str), rtrim (l' ++ x) = if rtrim x = [] then [] else l' ++ rtrim x := by
      intro x
      unfold rtrim
      rw [List.reverse_append]
      have : ∀ (y z : Str), Blank z → (y ++ z).dropWhile isSpace =
          if y.dropWhile isSpace = [] then [] else y.dropWhile isSpace ++ z := by
        intro y z hz
        induction y with
        | nil =>
          have : z.dropWhile isSpace = [] := by
            have := ltrim_blank_append hz []
            simpa [ltrim] using this
          simp [this]
        | cons a y ih =>
          by_cases hs : isSpace a = true
          · rw [List.cons_append, List.dropWhile_cons_of_pos hs, List.dropWhile_cons_of_pos hs]; exact ih
          · rw [List.cons_append, List.dropWhile_cons_of_neg hs, List.dropWhile_cons_of_neg hs, if_neg (by simp)]
            rfl
      rw [this _ _ (fun c hc => hl' c (by simpa using hc))]
      split
      · rename_i h; simp [h]
      · rename_i h
        rw [if_neg (by simpa using h)]
        simp
    rw [hx]
    split
    · rename_i h; rw [h]
    · rw [ltrim_blank_append hl']

/-! ### Lines of a text -/

theorem fileLines_cons {l : Str} (h : '\n' ∉ l) (r : Str) : fileLines (l ++ '\n' :: r) = l :: fileLines r := by
  induction l with
  | nil => simp [fileLines]
  | cons a l ih =>
    simp only [List.mem_cons, not_or] at h
    rw [List.cons_append]
    have ha : a ≠ '\n' := fun e => h.1 e.symm
    conv => lhs; unfold fileLines
    split
    · rename_i e; cases e
    · rename_i e; cases e; exact absurd rfl ha
    · rename_i e
      cases e
      rw [ih h.2]
      cases l with
      | nil => simp
      | cons b l =>
        simp only [List.mem_cons, not_or] at h
        simp only [List.cons_append, List.head?_cons, Option.some.injEq]
        rw [if_neg (fun e => h.2.1 e.symm)]

theorem fileLines_last {l : Str} (h : '\n' ∉ l) (hl : l ≠ []) : fileLines l = [l] := by
  induction l with
  | nil => exact absurd rfl hl
  | cons a l ih =>
    simp only [List.mem_cons, not_or] at h
    have ha : a ≠ '\n' := fun e => h.1 e.symm
    conv => lhs; unfold fileLines
    split
    · rename_i e; cases e
    · rename_i e; cases e; exact absurd rfl ha
    · rename_i e
      cases e
      cases l with
      | nil => rfl
      | cons b l =>
        rw [ih h.2 (by simp)]
        simp only [List.mem_cons, not_or] at h
        simp only [List.head?_cons, Option.some.injEq]
        rw [if_neg (fun e => h.2.1 e.symm)]

theorem fileLines_of {c : Str} {ls : List Str} (h : TextIs c ls) : fileLines c = ls := by
  obtain ⟨hn, h⟩ := h
  have gen : ∀ (ls : List Str) (r : Str), (∀ l ∈ ls, '\n' ∉ l) →
      fileLines ((ls.map (· ++ ['\n'])).flatten ++ r) = ls ++ fileLines r := by
    intro ls r
    induction ls with
    | nil => intro _; rfl
    | cons l ls ih =>
      intro h
      have e : ((l :: ls).map (· ++ ['\n'])).flatten ++ r = l ++ '\n' :: ((ls.map (· ++ ['\n'])).flatten ++ r) := by
        simp
      rw [e, fileLines_cons (h l (by simp)), ih (fun x hx => h x (by simp [hx]))]
      rfl
  rcases h with rfl | ⟨init, last, rfl, hl, rfl⟩
  · have := gen ls [] hn
    simpa [fileLines] using this
  · rw [gen init last (fun x hx => hn x (by simp [hx])), fileLines_last (hn last (by simp)) hl]

/-! ### Words -/

theorem dropColons_append {k : Str} (hk : k ≠ []) (hl : k.getLast? ≠ some ':') {cs : Str}
    (hc : ∀ c ∈ cs, c = ':') : dropColons (k ++ cs) = k := by
  unfold dropColons
  rw [List.reverse_append]
  have h1 : ∀ (x y : Str), (∀ c ∈ x, c = ':') → (x ++ y).dropWhile (· == ':') = y.dropWhile (· == ':') := by
    intro x y hx
    induction x with
    | nil => rfl
    | cons a x ih =>
      rw [List.cons_append, List.dropWhile_cons_of_pos (by simpa using hx a (by simp))]
      exact ih (fun c hc => hx c (by simp [hc]))
  rw [h1 _ _ (fun c h => hc c (by simpa using h))]
  cases e : k.reverse with
  | nil => exact absurd (by simpa using e) hk
  | cons a t =>
    have : k.getLast? = some a := by rw [← List.head?_reverse, e]; rfl
    rw [List.dropWhile_cons_of_neg (by
      simp only [beq_iff_eq]
      rintro rfl
      exact hl this), ← e, List.reverse_reverse]

theorem takeWhile_append_of_all {p : Char → Bool} {a b : Str} (h : ∀ x ∈ a, p x = true) :
    (a ++ b).takeWhile p = a ++ b.takeWhile p := by
  induction a with
  | nil => rfl
  | cons x a ih =>
    rw [List.cons_append, List.takeWhile_cons_of_pos (h x (by simp)), ih (fun y hy => h y (by simp [hy]))]
    rfl

theorem delim_run {r : Str} (h : Delim r) : ∀ c ∈ r.takeWhile isWordMid, c = ':' := by
  obtain ⟨cs, r', rfl, hc, hr⟩ := h
  have hall : ∀ x ∈ cs, isWordMid x = true := by
    intro x hx; rw [hc x hx]; decide
  rw [takeWhile_append_of_all hall]
  have : r'.takeWhile isWordMid = [] := by
    cases r' with
    | nil => rfl
    | cons a r' =>
      have : isWordMid a = false := by
        cases e : isWordMid a with
        | false => rfl
        | true => exact absurd ((isWordMid_iff a).1 e) (hr a rfl)
      rw [List.takeWhile_cons_of_neg (by simp [this])]
  rw [this, List.append_nil]
  exact hc

theorem delim_of_head {r : Str} (h : ∀ c, r.head? = some c → c ∉ wordChars) : Delim r := ⟨[], r, rfl, by simp, h⟩

theorem delim_sym (t : Str) : Delim (c!":=" ++ t) :=
  ⟨[':'], '=' :: t, rfl, by simp, by intro c hc; simp at hc; subst hc; decide⟩

theorem scanWord_key {k r : Str} (hk : Key k) (hr : Delim r) : scanWord (k ++ r) = some (k, r) := by
  obtain ⟨h1, ⟨a, ha, hal⟩, h3, h4⟩ := hk
  cases k with
  | nil => simp at ha
  | cons b k =>
    simp at ha; subst ha
    have hk0 : k ≠ [] := by rintro rfl; simp at h1
    have hl : k.getLast? ≠ some ':' := by
      cases k with
      | nil => exact absurd rfl hk0
      | cons c k => simpa [List.getLast?_cons_cons] using h4
    have hrun : (k ++ r).takeWhile isWordMid = k ++ r.takeWhile isWordMid :=
      takeWhile_append_of_all (fun x hx => (isWordMid_iff x).2 (h3 x (by simp [hx])))
    have hd : dropColons ((k ++ r).takeWhile isWordMid) = k := by
      rw [hrun]; exact dropColons_append hk0 hl (delim_run hr)
    show scanWord (b :: (k ++ r)) = _
    unfold scanWord
    simp only
    rw [hd, (isAlpha_iff b).2 hal]
    have : 2 ≤ k.length := by simp at h1; omega
    simp [this]

/-- A scanned word is a key. -/
theorem scanWord_sound {s k r : Str} (h : scanWord s = some (k, r)) : Key k ∧ s = k ++ r := by
  unfold scanWord at h
  split at h
  · simp at h
  · rename_i a t
    split at h
    · rename_i hc
      simp only [Bool.and_eq_true, decide_eq_true_eq] at hc
      simp only [Option.some.injEq, Prod.mk.injEq] at h
      obtain ⟨rfl, rfl⟩ := h
      have hpre : ∀ x : Str, ∃ y, x = dropColons x ++ y := by
        intro x
        refine ⟨(x.reverse.takeWhile (· == ':')).reverse, ?_⟩
        unfold dropColons
        rw [← List.reverse_append, List.takeWhile_append_dropWhile, List.reverse_reverse]
      obtain ⟨y, hy⟩ := hpre (t.takeWhile isWordMid)
      have ht : t = dropColons (t.takeWhile isWordMid) ++ (y ++ t.dropWhile isWordMid) := by
        rw [← List.append_assoc, ← hy, List.takeWhile_append_dropWhile]
      refine ⟨⟨?_, ⟨a, rfl, (isAlpha_iff a).1 hc.1⟩, ?_, ?_⟩, ?_⟩
      · simp; omega
      · intro c hcm
        rcases List.mem_cons.1 hcm with rfl | hcm
        · exact letter_word ((isAlpha_iff c).1 hc.1)
        · have : c ∈ t.takeWhile isWordMid := by rw [hy]; simp [hcm]
          exact (isWordMid_iff c).1 (takeWhile_all _ _ c this)
      · intro e
        have hne : dropColons (t.takeWhile isWordMid) ≠ [] := by
          intro e; rw [e] at hc; simp at hc
        rw [List.getLast?_cons] at e
        cases e2 : (dropColons (t.takeWhile isWordMid)).getLast? with
        | none => exact hne (List.getLast?_eq_none_iff.1 e2)
        | some z =>
          rw [e2] at e
          simp at e
          subst e
          unfold dropColons at e2
          rw [List.getLast?_reverse] at e2
          have := dropWhile_head_false (· == ':') _ _ e2
          simp at this
      · rw [List.cons_append]
        congr 1
        conv => rhs; rw [show t.drop (dropColons (t.takeWhile isWordMid)).length = y ++ t.dropWhile isWordMid by
          conv => lhs; arg 2; rw [ht]
          simp]
        exact ht
    · simp at h

theorem scanWord_none {s : Str} (h : ∀ k r, Key k → s ≠ k ++ r) : scanWord s = none := by
  cases e : scanWord s with
  | none => rfl
  | some x =>
    obtain ⟨h1, h2⟩ := scanWord_sound (k := x.1) (r := x.2) (by rw [e])
    exact absurd h2 (h _ _ h1)

/-! ### Flags -/

theorem scanFlag_text {f : Str} (h : FlagText f) (r : Str) :
    scanFlag (c!"[" ++ f ++ c!"]" ++ r) = some (c!"[" ++ f ++ c!"]", r) := by
  have e : c!"[" ++ f ++ c!"]" ++ r = '[' :: (f ++ ']' :: r) := by simp
  rw [e]
  obtain ⟨h1, h2⟩ := takeWhile_append_stop (p := isFlagChar) (r := r)
    (fun x hx => (isFlagChar_iff x).2 (h.2 x hx)) (show isFlagChar ']' = false by decide)
  unfold scanFlag
  simp only [h1, h2]
  cases f with
  | nil => exact absurd rfl h.1
  | cons a f => rfl

theorem scanFlag_sound {s f r : Str} (h : scanFlag s = some (f, r)) :
    ∃ t, FlagText t ∧ f = c!"[" ++ t ++ c!"]" ∧ s = c!"[" ++ t ++ c!"]" ++ r := by
  unfold scanFlag at h
  split at h
  · rename_i t
    split at h
    · simp at h
    · rename_i f' rest e1 hne
      simp only [Option.some.injEq, Prod.mk.injEq] at h
      obtain ⟨rfl, rfl⟩ := h
      refine ⟨t.takeWhile isFlagChar, ⟨hne, fun c hc => (isFlagChar_iff c).1 (takeWhile_all _ _ c hc)⟩, rfl, ?_⟩
      have := (List.takeWhile_append_dropWhile (p := isFlagChar) (l := t)).symm
      rw [e1] at this
      conv => lhs; rw [this]
      simp
    · simp at h
  · simp at h

theorem scanFlag_none {s : Str} (h : ∀ f r, FlagText f → s ≠ c!"[" ++ f ++ c!"]" ++ r) : scanFlag s = none := by
  cases e : scanFlag s with
  | none => rfl
  | some x =>
    obtain ⟨t, h1, _, h2⟩ := scanFlag_sound (f := x.1) (r := x.2) (by rw [e])
    exact absurd h2 (h _ _ h1)

theorem scanFlag_head {s : Str} (h : s.head? ≠ some '[') : scanFlag s = none := by
  apply scanFlag_none
  rintro f r _ rfl
  exact h rfl

/-! ### lex -/

theorem lex_key {k r : Str} (hk : Key k) (hr : Delim r) : lex (k ++ r) = (⟨.word, k⟩, trim r) := by
  obtain ⟨a, ha, hal⟩ := hk.2.1
  have hh : (k ++ r).head? = some a := by
    cases k with
    | nil => simp at ha
    | cons b k => simpa using ha
  have h1 : ∀ c ∈ letters, c ≠ ':' ∧ c ≠ '=' ∧ c ≠ '[' := by decide +kernel
  obtain ⟨n1, n2, n3⟩ := h1 a hal
  unfold lex
  rw [if_neg, if_neg, scanFlag_head, scanWord_key hk hr]
  · rw [hh]; simpa using n3
  · rw [hh]; simpa using n2
  · intro e
    obtain ⟨t, e⟩ := (startsWith_iff _ _).1 e
    rw [e] at hh
    simp at hh
    exact n1 hh.symm

theorem lex_assign (v : Str) : lex (c!"=" ++ v) = (⟨.assign, trim v⟩, []) := by
  unfold lex
  rw [if_neg (by simp [startsWith])]
  simp

theorem lex_sym (v : Str) : lex (c!":=" ++ v) = (⟨.localAssign, trim v⟩, []) := by
  unfold lex
  rw [if_pos (by simp [startsWith])]
  simp

theorem lex_flag {f : Str} (h : FlagText f) (r : Str) :
    lex (c!"[" ++ f ++ c!"]" ++ r) = (⟨.flag, c!"[" ++ f ++ c!"]"⟩, trim r) := by
  unfold lex
  rw [if_neg (by simp [startsWith]), if_neg (by simp), scanFlag_text h]

/-- The token at the start of text that is not an assignment and not a flag is a word or an error. -/
theorem lex_other {s : Str} (h1 : s.head? ≠ some '=') (h2 : ∀ r, s ≠ c!":=" ++ r)
    (h3 : ∀ f r, FlagText f → s ≠ c!"[" ++ f ++ c!"]" ++ r) :
    lex s = match scanWord s with
      | some (v, rest) => (⟨.word, v⟩, trim rest)
      | none => (⟨.error, s⟩, []) := by
  unfold lex
  rw [if_neg, if_neg h1, scanFlag_none h3]
  · rfl
  · intro e
    obtain ⟨t, e⟩ := (startsWith_iff _ _).1 e
    exact h2 t e

/-- Only text beginning with a key gives a word. -/
theorem lex_noKey {s : Str} (h : ∀ k r, Key k → s ≠ k ++ r) : (lex s).1.ty ≠ .word := by
  unfold lex
  split
  · simp
  · split
    · simp
    · split
      · simp
      · rw [scanWord_none h]; simp

theorem keyword_key {k : Str} (h : k ∈ keywords) : Key k := by
  simp only [keywords, List.mem_cons, List.not_mem_nil, or_false] at h
  have : ∀ k : Str, k ∈ keywords → 3 ≤ k.length ∧ (k.head?.any (fun a => decide (a ∈ letters))) = true ∧
    (∀ c ∈ k, c ∈ wordChars) ∧ k.getLast? ≠ some ':' := by decide +kernel
  obtain ⟨h1, h2, h3, h4⟩ := this k (by simp [keywords, h])
  refine ⟨h1, ?_, h3, h4⟩
  cases e : k.head? with
  | none => rw [e] at h2; simp at h2
  | some a => rw [e] at h2; exact ⟨a, rfl, by simpa using h2⟩

end Vital.Parser
