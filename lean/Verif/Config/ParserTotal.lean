import Verif.Config.ParserSim
/-
  Every text has a meaning: any file content consists of lines, and any line says something.
-/
namespace Vital.Parser
open Vital Vital.Config Vital.Expand Vital.Sys

/-! ### Text and lines -/

theorem first_newline (c : Str) : '\n' ∉ c ∨ ∃ l r, c = l ++ '\n' :: r ∧ '\n' ∉ l := by
  induction c with
  | nil => left; simp
  | cons a c ih =>
    by_cases ha : a = '\n'
    · subst ha; exact .inr ⟨[], c, rfl, by simp⟩
    · rcases ih with h | ⟨l, r, rfl, h⟩
      · left; simp [h, Ne.symm ha]
      · exact .inr ⟨a :: l, r, rfl, by simp [h, Ne.symm ha]⟩

/-- Every text consists of lines. -/
theorem text_total : ∀ (n : Nat) (c : Str), c.length ≤ n → ∃ ls, TextIs c ls := by
  intro n
  induction n with
  | zero =>
    intro c hc
    have : c = [] := List.length_eq_zero_iff.1 (by omega)
    subst this
    exact ⟨[], by simp, .inl rfl⟩
  | succ n ih =>
    intro c hc
    rcases first_newline c with h | ⟨l, r, rfl, h⟩
    · by_cases he : c = []
      · subst he; exact ⟨[], by simp, .inl rfl⟩
      · exact ⟨[c], by simpa using h, .inr ⟨[], c, rfl, he, by simp⟩⟩
    · obtain ⟨ls, h1, h2⟩ := ih r (by simp at hc; omega)
      refine ⟨l :: ls, ?_, ?_⟩
      · intro x hx
        rcases List.mem_cons.1 hx with rfl | hx
        · exact h
        · exact h1 x hx
      · rcases h2 with rfl | ⟨init, last, rfl, hl, rfl⟩
        · left; simp
        · exact .inr ⟨l :: init, last, by simp, hl, by simp⟩

/-- Every line can be cleaned. -/
theorem cleans_total (l : Str) : ∃ c, CleansTo l c := by
  obtain ⟨b1, b2, h1, h2, e⟩ := trim_spec (l.takeWhile (· != '#'))
  refine ⟨trim (l.takeWhile (· != '#')), b1, b2, l.dropWhile (· != '#'), ?_, h1, h2, trim_trimmed _, ?_, ?_⟩
  · rw [← e, List.takeWhile_append_dropWhile]
  · intro hm
    have : '#' ∈ l.takeWhile (· != '#') := by rw [e]; simp [hm]
    have := takeWhile_all _ _ _ this
    simp at this
  · cases e : l.dropWhile (· != '#') with
    | nil => exact .inl rfl
    | cons a t =>
      right
      have := dropWhile_head_false (· != '#') l a (by rw [e]; rfl)
      simp at this
      rw [this]; rfl

/-! ### One line -/

theorem scanWord_delim {s k r : Str} (h : scanWord s = some (k, r)) : Delim r := by
  unfold scanWord at h
  split at h
  · simp at h
  · rename_i a t
    split at h
    · simp only [Option.some.injEq, Prod.mk.injEq] at h
      obtain ⟨_, rfl⟩ := h
      have hy : t.takeWhile isWordMid = dropColons (t.takeWhile isWordMid) ++ ((t.takeWhile isWordMid).reverse.takeWhile (· == ':')).reverse := by
        unfold dropColons
        rw [← List.reverse_append, List.takeWhile_append_dropWhile, List.reverse_reverse]
      have ht : t = dropColons (t.takeWhile isWordMid) ++
          (((t.takeWhile isWordMid).reverse.takeWhile (· == ':')).reverse ++ t.dropWhile isWordMid) := by
        rw [← List.append_assoc, ← hy, List.takeWhile_append_dropWhile]
      refine ⟨((t.takeWhile isWordMid).reverse.takeWhile (· == ':')).reverse, t.dropWhile isWordMid, ?_, ?_, ?_⟩
      · conv => lhs; arg 2; rw [ht]
        simp
      · intro c hc
        have := takeWhile_all _ _ c (List.mem_reverse.1 hc)
        simpa using this
      · intro c hc hw
        have := dropWhile_head_false _ _ _ hc
        rw [(isWordMid_iff c).2 hw] at this
        simp at this
    · simp at h

theorem scanWord_isSome {k r : Str} (hk : Key k) : ∃ x, scanWord (k ++ r) = some x := by
  obtain ⟨h1, ⟨a, ha, hal⟩, h3, h4⟩ := hk
  cases k with
  | nil => simp at ha
  | cons b k =>
    simp at ha; subst ha
    have hrun : (k ++ r).takeWhile isWordMid = k ++ r.takeWhile isWordMid :=
      takeWhile_append_of_all (fun x hx => (isWordMid_iff x).2 (h3 x (by simp [hx])))
    have hk0 : k ≠ [] := by rintro rfl; simp at h1
    have hl : k.getLast? ≠ some ':' := by
      cases k with
      | nil => exact absurd rfl hk0
      | cons c k => simpa [List.getLast?_cons_cons] using h4
    -- the word found is at least as long as k
    have hlen : k.length ≤ (dropColons (k ++ r.takeWhile isWordMid)).length := by
      generalize r.takeWhile isWordMid = y
      unfold dropColons
      rw [List.reverse_append, List.length_reverse]
      have : ∀ (x : Str), k.length ≤ ((x ++ k.reverse).dropWhile (· == ':')).length := by
        intro x
        induction x with
        | nil =>
          have := congrArg List.length (dropColons_append hk0 hl (cs := []) (by simp))
          unfold dropColons at this
          simp at this
          simp [this]
        | cons a x ih =>
          rw [List.cons_append, List.dropWhile_cons]
          split
          · exact ih
          · simp; omega
      exact this _
    show ∃ x, scanWord (b :: (k ++ r)) = some x
    unfold scanWord
    simp only
    rw [if_pos]
    · exact ⟨_, rfl⟩
    · rw [hrun]
      simp only [(isAlpha_iff b).2 hal, Bool.true_and, decide_eq_true_eq]
      simp at h1
      omega

theorem noKey_of_none {s : Str} (h : scanWord s = none) : ∀ k r, Key k → s ≠ k ++ r := by
  rintro k r hk rfl
  obtain ⟨x, hx⟩ := scanWord_isSome (r := r) hk
  rw [h] at hx; simp at hx

theorem noFlag_of_none {s : Str} (h : scanFlag s = none) : ∀ f r, FlagText f → s ≠ c!"[" ++ f ++ c!"]" ++ r := by
  rintro f r hf rfl
  rw [scanFlag_text hf] at h; simp at h

theorem blank_split (r : Str) : ∃ sp t, r = sp ++ t ∧ Blank sp ∧ ∀ c, t.head? = some c → isSpace c = false :=
  ⟨r.takeWhile isSpace, r.dropWhile isSpace, List.takeWhile_append_dropWhile.symm, fun c hc => takeWhile_all _ _ c hc,
    fun c hc => dropWhile_head_false _ _ _ hc⟩

/-- After a key come flags, then the end or text that is not a flag. -/
theorem flags_total : ∀ (n : Nat) (r : Str), r.length ≤ n → ∃ fl fs t, r = fl ++ t ∧ Flags fl fs ∧
    (t = [] ∨ ∃ c t', t = c :: t' ∧ isSpace c = false ∧ ∀ f r, FlagText f → c :: t' ≠ c!"[" ++ f ++ c!"]" ++ r) := by
  intro n
  induction n with
  | zero =>
    intro r hr
    have : r = [] := List.length_eq_zero_iff.1 (by omega)
    subst this
    exact ⟨[], [], [], rfl, .nil (by simp [Blank]), .inl rfl⟩
  | succ n ih =>
    intro r hr
    obtain ⟨sp, t, rfl, hsp, ht⟩ := blank_split r
    cases t with
    | nil => exact ⟨sp, [], [], rfl, .nil hsp, .inl rfl⟩
    | cons c t' =>
      cases e : scanFlag (c :: t') with
      | none => exact ⟨sp, [], c :: t', rfl, .nil hsp, .inr ⟨c, t', rfl, ht c rfl, noFlag_of_none e⟩⟩
      | some x =>
        obtain ⟨f, hf, _, e2⟩ := scanFlag_sound (f := x.1) (r := x.2) (by rw [e])
        rw [e2] at hr ⊢
        obtain ⟨fl, fs, t, h1, h2, h3⟩ := ih x.2 (by simp at hr; omega)
        refine ⟨sp ++ c!"[" ++ f ++ c!"]" ++ fl, f :: fs, t, ?_, .cons hsp hf h2, h3⟩
        rw [h1]; simp

/-- What a line with a given key says. -/
theorem define_total {rel : Bool} {p key r : Str} (hp : Lead rel p) (hk : Key key) (hkw : rel = false → key ∉ keywords)
    (hd : Delim r) : (∃ d, LineIs (p ++ key ++ r) d) ∨ Incomplete (p ++ key ++ r) := by
  obtain ⟨fl, fs, t, rfl, hfl, ht⟩ := flags_total r.length r (Nat.le_refl _)
  rcases ht with rfl | ⟨c, t', rfl, hsp, hnf⟩
  · right
    rw [List.append_nil]
    exact .key hp hk hkw hfl
  · left
    by_cases h1 : c = '='
    · subst h1
      have := LineIs.entry (v := t') hp hk hkw hfl ((stripsTo_iff _ _).2 rfl)
      exact ⟨_, by simpa using this⟩
    · by_cases h2 : ∃ v, c :: t' = c!":=" ++ v
      · obtain ⟨v, hv⟩ := h2
        have := LineIs.sym (v := v) hp hk hkw hfl ((stripsTo_iff _ _).2 rfl)
        rw [hv]
        exact ⟨_, by simpa using this⟩
      · have := LineIs.noAssign hp hk hkw hfl hsp hd h1 (fun v hv => h2 ⟨v, hv⟩) hnf
        exact ⟨_, by simpa using this⟩

theorem delim_head_letter {c : Char} {t : Str} (h : Delim (c :: t)) : c ∉ letters := by
  obtain ⟨cs, r', e, h1, h2⟩ := h
  intro hc
  cases cs with
  | nil => rw [List.nil_append] at e; rw [← e] at h2; exact h2 c rfl (letter_word hc)
  | cons a cs =>
    simp only [List.cons_append, List.cons.injEq] at e
    have := h1 a (by simp)
    rw [← e.1] at this
    subst this
    revert hc; decide

/-- What a line beginning with a key says. -/
theorem word_total {key r : Str} (hk : Key key) (hd : Delim r) (htr : Trimmed (key ++ r)) :
    (∃ d, LineIs (key ++ r) d) ∨ Incomplete (key ++ r) := by
  by_cases hkw : key ∈ keywords
  · -- the text after a directive that expects a name
    have rest : ∀ sp t, r = sp ++ t → Blank sp → (∀ c : Char, t.head? = some c → isSpace c = false) → t = [] → r = [] := by
      rintro sp t rfl hsp _ rfl
      rw [List.append_nil] at htr ⊢
      cases sp with
      | nil => rfl
      | cons a sp' =>
        exfalso
        have hl := htr.2 ((a :: sp').getLast (by simp)) (by rw [getLast_append_cons, List.getLast?_eq_some_getLast (by simp)])
        rw [hsp _ (List.getLast_mem _)] at hl
        simp at hl
    have sp_ne : ∀ sp k t, r = sp ++ (k ++ t) → Key k → sp ≠ [] := by
      rintro sp k t rfl hk' rfl
      obtain ⟨a, ha, hal⟩ := hk'.2.1
      cases k with
      | nil => simp at ha
      | cons b k =>
        simp at ha; subst ha
        exact delim_head_letter (by simpa using hd) hal
    have hkw' := hkw
    simp only [keywords, List.mem_cons, List.not_mem_nil, or_false] at hkw'
    obtain ⟨sp, t, e, hsp, ht⟩ := blank_split r
    rcases hkw' with rfl | rfl | rfl | rfl
    · exact .inl ⟨_, .incl hd ((stripsTo_iff _ _).2 rfl)⟩
    · cases t with
      | nil => rw [rest sp [] e hsp ht rfl]; right; exact .block
      | cons c t =>
        left
        cases hw : scanWord (c :: t) with
        | none =>
          have := LineIs.noName (.inl rfl) hsp (ht c rfl) (by rw [← e]; exact hd) (noKey_of_none hw)
          rw [e]
          exact ⟨_, by simpa using this⟩
        | some x =>
          obtain ⟨hk', e2⟩ := scanWord_sound (k := x.1) (r := x.2) (by rw [hw])
          have hd' := scanWord_delim (k := x.1) (r := x.2) (by rw [hw])
          have := LineIs.block hsp (sp_ne sp x.1 x.2 (by rw [e, e2]) hk') hk' hd'
          rw [e, e2]
          exact ⟨_, by simpa using this⟩
    · exact .inl ⟨_, .endblock hd⟩
    · cases t with
      | nil => rw [rest sp [] e hsp ht rfl]; right; exact .rel
      | cons c t =>
        cases hw : scanWord (c :: t) with
        | none =>
          left
          have := LineIs.noName (.inr rfl) hsp (ht c rfl) (by rw [← e]; exact hd) (noKey_of_none hw)
          rw [e]
          exact ⟨_, by simpa using this⟩
        | some x =>
          obtain ⟨hk', e2⟩ := scanWord_sound (k := x.1) (r := x.2) (by rw [hw])
          have hd' := scanWord_delim (k := x.1) (r := x.2) (by rw [hw])
          have := define_total (rel := true) (p := c!"relativepath" ++ sp) (key := x.1) (r := x.2)
            ⟨sp, hsp, sp_ne sp x.1 x.2 (by rw [e, e2]) hk', rfl⟩ hk' (by simp) hd'
          rw [e, e2]
          simpa using this
  · have := define_total (rel := false) (p := []) (key := key) (r := r) rfl hk (fun _ => hkw) hd
    simpa using this

/-- Every line says something, needs more text, or is one of the peculiar forms of a directive. -/
theorem line_total {c : Str} (hc : c ≠ []) (htr : Trimmed c) :
    (∃ d, LineIs c d) ∨ Incomplete c ∨ ∃ k, k ∈ keywords ∧ Normal c k ∧ c.head?.any (fun a => decide (a ∈ letters)) = false := by
  by_cases h1 : ∃ v, c = c!"=" ++ v
  · obtain ⟨v, rfl⟩ := h1
    by_cases hk : trim v ∈ keywords
    · exact .inr (.inr ⟨_, hk, .assign ((stripsTo_iff _ _).2 rfl) hk, by show decide ('=' ∈ letters) = false; decide +kernel⟩)
    · exact .inl ⟨_, .assignFirst ((stripsTo_iff _ _).2 rfl) hk⟩
  · by_cases h2 : ∃ v, c = c!":=" ++ v
    · obtain ⟨v, rfl⟩ := h2
      by_cases hk : trim v ∈ keywords
      · exact .inr (.inr ⟨_, hk, .symAssign ((stripsTo_iff _ _).2 rfl) hk, by show decide (':' ∈ letters) = false; decide +kernel⟩)
      · exact .inl ⟨_, .symFirst ((stripsTo_iff _ _).2 rfl) hk⟩
    · cases hf : scanFlag c with
      | some x =>
        obtain ⟨f, hf', _, e2⟩ := scanFlag_sound (f := x.1) (r := x.2) (by rw [hf])
        rw [e2]
        exact .inl ⟨_, .flagFirst hf'⟩
      | none =>
        cases hw : scanWord c with
        | none =>
          refine .inl ⟨_, .noToken hc ⟨?_, fun r e => h2 ⟨r, e⟩, noFlag_of_none hf, noKey_of_none hw⟩⟩
          intro he
          cases c with
          | nil => exact hc rfl
          | cons a c => simp at he; subst he; exact h1 ⟨c, rfl⟩
        | some x =>
          obtain ⟨hk, e2⟩ := scanWord_sound (k := x.1) (r := x.2) (by rw [hw])
          have hd := scanWord_delim (k := x.1) (r := x.2) (by rw [hw])
          rw [e2] at htr ⊢
          rcases word_total hk hd htr with h | h
          · exact .inl h
          · exact .inr (.inl h)

theorem incomplete_head {c : Str} (h : Incomplete c) (r : Str) : (c ++ r).head?.any (fun a => decide (a ∈ letters)) = true := by
  cases h with
  | block => show decide ('b' ∈ letters) = true; decide +kernel
  | rel => show decide ('r' ∈ letters) = true; decide +kernel
  | @key rel p key fl flags hp hk _ _ =>
    cases rel with
    | false =>
      have hp' : p = [] := hp
      subst hp'
      obtain ⟨a, ha, hal⟩ := hk.2.1
      cases key with
      | nil => simp at ha
      | cons b k => simp at ha; subst ha; simp [hal]
    | true =>
      obtain ⟨sp, _, _, rfl⟩ := hp
      show decide ('r' ∈ letters) = true
      decide +kernel

/-- Blank lines, then the end or a line with text. -/
theorem blanks_total (ls : List Str) : (∀ x ∈ ls, CleansTo x []) ∨
    ∃ bl l c rest, ls = bl ++ l :: rest ∧ (∀ x ∈ bl, CleansTo x []) ∧ CleansTo l c ∧ c ≠ [] := by
  induction ls with
  | nil => left; simp
  | cons l ls ih =>
    obtain ⟨c, hc⟩ := cleans_total l
    by_cases he : c = []
    · subst he
      rcases ih with h | ⟨bl, l', c', rest, rfl, h1, h2, h3⟩
      · left
        intro x hx
        rcases List.mem_cons.1 hx with rfl | hx
        · exact hc
        · exact h x hx
      · refine .inr ⟨l :: bl, l', c', rest, rfl, ?_, h2, h3⟩
        intro x hx
        rcases List.mem_cons.1 hx with rfl | hx
        · exact hc
        · exact h1 x hx
    · exact .inr ⟨[], l, c, ls, rfl, by simp, hc, he⟩

theorem logical_whole {n : Nat} {c : Str} {ls : List Str} (h : ∃ d, LineIs c d) :
    ∃ m d rest, Logical n c ls m d rest ∧ rest.length ≤ ls.length := by
  obtain ⟨d, hd⟩ := h
  exact ⟨n, d, ls, .whole hd, Nat.le_refl _⟩

/-- Every line, continued if incomplete, says something. -/
theorem logical_total : ∀ (N : Nat) (n : Nat) (c : Str) (ls : List Str), ls.length ≤ N → c ≠ [] → Trimmed c → Incomplete c →
    ∃ m d rest, Logical n c ls m d rest ∧ rest.length ≤ ls.length := by
  intro N
  induction N with
  | zero =>
    intro n c ls hls hc htr hi
    have : ls = [] := List.length_eq_zero_iff.1 (by omega)
    subst this
    exact ⟨_, _, _, .cut hi (by simp), by simp⟩
  | succ N ih =>
    intro n c ls hls hc htr hi
    rcases blanks_total ls with h | ⟨bl, l, c2, rest, rfl, h1, h2, h3⟩
    · exact ⟨_, _, _, .cut hi h, by simp⟩
    · have htr' := trimmed_join hc h3 htr (clean_trimmed h2)
      have : ∃ m d rest', Logical (n + (bl.length + 1)) (c ++ c!" " ++ c2) rest m d rest' ∧ rest'.length ≤ rest.length := by
        rcases line_total (c := c ++ c!" " ++ c2) (by simp) htr' with hl | hl | ⟨k, _, _, hh⟩
        · exact logical_whole hl
        · exact ih _ _ rest (by simp at hls; omega) (by simp) htr' hl
        · have := incomplete_head hi (c!" " ++ c2)
          rw [List.append_assoc] at hh
          rw [hh] at this; simp at this
      obtain ⟨m, d, rest', h4, h5⟩ := this
      exact ⟨m, d, rest', .join hi h1 h2 h3 h4, by simp; omega⟩

/-- Every sequence of lines has a meaning. -/
theorem lines_total : ∀ (N : Nat) (n : Nat) (ls : List Str), ls.length ≤ N → ∃ ds, Lines n ls ds := by
  intro N
  induction N with
  | zero =>
    intro n ls h
    have : ls = [] := List.length_eq_zero_iff.1 (by omega)
    subst this
    exact ⟨[], .nil⟩
  | succ N ih =>
    intro n ls h
    cases ls with
    | nil => exact ⟨[], .nil⟩
    | cons l ls =>
      simp at h
      obtain ⟨c, hc⟩ := cleans_total l
      by_cases he : c = []
      · subst he
        obtain ⟨ds, hds⟩ := ih (n + 1) ls h
        exact ⟨ds, .skip hc hds⟩
      · have hlog : ∃ c' m d rest, Normal c c' ∧ Logical (n + 1) c' ls m d rest ∧ rest.length ≤ ls.length := by
          rcases line_total he (clean_trimmed hc) with hl | hl | ⟨k, hk, hno, _⟩
          · obtain ⟨m, d, rest, h⟩ := logical_whole (n := n + 1) (ls := ls) hl
            exact ⟨c, m, d, rest, .same, h⟩
          · obtain ⟨m, d, rest, h⟩ := logical_total _ (n + 1) c ls (Nat.le_refl _) he (clean_trimmed hc) hl
            exact ⟨c, m, d, rest, .same, h⟩
          · obtain ⟨hne, htr⟩ := normal_trimmed hno he (clean_trimmed hc)
            have : (∃ d, LineIs (k ++ []) d) ∨ Incomplete (k ++ []) :=
              word_total (keyword_key hk) (delim_of_head (by simp)) (by simpa using htr)
            rw [List.append_nil] at this
            rcases this with hl | hl
            · obtain ⟨m, d, rest, h⟩ := logical_whole (n := n + 1) (ls := ls) hl
              exact ⟨k, m, d, rest, hno, h⟩
            · obtain ⟨m, d, rest, h⟩ := logical_total _ (n + 1) k ls (Nat.le_refl _) hne htr hl
              exact ⟨k, m, d, rest, hno, h⟩
        obtain ⟨c', m, d, rest, hno, hl, hlen⟩ := hlog
        obtain ⟨ds, hds⟩ := ih m rest (by omega)
        exact ⟨(m, d) :: ds, .line hc he hno hl hds⟩

/-- Every file of every world has a meaning. -/
theorem described (w : World) : Described w := by
  intro path c _
  obtain ⟨ls, hls⟩ := text_total _ c (Nat.le_refl _)
  obtain ⟨ds, hds⟩ := lines_total _ 0 ls (Nat.le_refl _)
  exact ⟨ls, ds, hls, hds⟩

end Vital.Parser
