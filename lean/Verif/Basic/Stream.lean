import Verif.Basic.Decimal
/-
  Formatted stream input and output, as far as the text formats of the code base need it
  ("C" locale, default flags, `skipws` set).

  An input stream is `none` once `failbit` is set, otherwise `some rest` with the unread text.  Reading
  at the end of the text fails, so `eofbit` needs no extra state.
-/
namespace Vital.Stream
open Vital

abbrev IStr := Option Str

/-- What an extractor does with text whose first character is not white space: the value stored and the
    unread text (`none` when it sets `failbit`). -/
abbrev Extractor (α : Type) := Str → α × IStr

-- models: std::istream::operator>> (sentry with skipws, then std::num_get); when the sentry fails the
-- variable keeps its value `v`
def extract {α : Type} (p : Extractor α) (s : IStr) (v : α) : IStr × α :=
  match s with
  | none => (none, v)
  | some t =>
    match ltrim t with
    | [] => (none, v)
    | c :: r => ((p (c :: r)).2, (p (c :: r)).1)

-- models: std::num_get for signed integers (libstdc++): 0 is stored when there are no digits, the nearest
-- bound when the value is out of range; both set failbit
def intEx (lo hi : Int) : Extractor Int := fun s =>
  let (neg, t) := splitSign s
  let ds := t.takeWhile isDigit
  if ds = [] then (0, none)
  else
    let v : Int := if neg then -(digitsVal ds : Int) else (digitsVal ds : Int)
    if v < lo then (lo, none) else if hi < v then (hi, none) else (v, some (t.dropWhile isDigit))

-- models: std::num_get for unsigned integers with values below `m` (libstdc++): a minus sign negates modulo `m`
def natEx (m : Nat) : Extractor Nat := fun s =>
  let (neg, t) := splitSign s
  let ds := t.takeWhile isDigit
  if ds = [] then (0, none)
  else if m ≤ digitsVal ds then (m - 1, none)
  else (if neg then (m - digitsVal ds) % m else digitsVal ds, some (t.dropWhile isDigit))

/-- How a stream writes and reads a floating point number.  The text conversions of the C++ library are
    not modelled; theorems assume `NumFmt.Lawful`. -/
structure NumFmt (ν : Type) where
  text : ν → Str
  parse : Extractor ν

/-- Rest of a text that ends a number: nothing, or white space first. -/
def Ends (rest : Str) : Prop := ∀ c, rest.head? = some c → isSpace c = true

/-- The text of a number is one word, and reading it back (when the number is `good`, i.e. finite)
    yields the number rounded to the printed precision. -/
structure NumFmt.Lawful {ν : Type} (f : NumFmt ν) (good : ν → Prop) (rnd : ν → ν) : Prop where
  nonempty : ∀ x, f.text x ≠ []
  nospace : ∀ x, ∀ c ∈ f.text x, isSpace c = false
  back : ∀ x, good x → ∀ rest, Ends rest → f.parse (f.text x ++ rest) = (rnd x, some rest)

/-! ### Words -/

def wordsGo : Str → Str → List Str
  | acc, [] => if acc = [] then [] else [acc]
  | acc, c :: r =>
    if isSpace c then (if acc = [] then wordsGo [] r else acc :: wordsGo [] r) else wordsGo (acc ++ [c]) r

-- models: vital/io/landmark_map_io.cxx:138-146 (get_tokens; std::istream_iterator<std::string>)
def words (s : Str) : List Str := wordsGo [] s

/-! ### Eigen's matrix output -/

/-- `setw( n )` with the default right adjustment. -/
def padTo (n : Nat) (s : Str) : Str := List.replicate (n - s.length) ' ' ++ s

def joinWith (sep : Str) : List Str → Str
  | [] => []
  | [a] => a
  | a :: b :: l => a ++ sep ++ joinWith sep (b :: l)

-- models: Eigen operator<< with the default IOFormat (coefficients padded to the longest one, separated by a
-- blank, rows separated by a newline)
def eigenText (rows : List (List Str)) : Str :=
  let width := (rows.flatten.map List.length).foldl max 0
  joinWith (c!"\n") (rows.map (fun r => joinWith (c!" ") (r.map (padTo width))))

/-! ### Lemmas -/

theorem ltrim_append_spaces {ws : Str} (h : ∀ c ∈ ws, isSpace c = true) (s : Str) : ltrim (ws ++ s) = ltrim s := by
  induction ws with
  | nil => rfl
  | cons a ws ih =>
    show List.dropWhile isSpace (a :: (ws ++ s)) = _
    rw [List.dropWhile_cons_of_pos (h a (by simp))]
    exact ih (fun c hc => h c (by simp [hc]))

theorem extract_spaces {α : Type} (p : Extractor α) {ws : Str} (h : ∀ c ∈ ws, isSpace c = true) (s : Str) (v : α) :
    extract p (some (ws ++ s)) v = extract p (some s) v := by
  unfold extract
  simp only [ltrim_append_spaces h]

theorem extract_word {α : Type} (p : Extractor α) {c : Char} {r : Str} (h : isSpace c = false) (v : α) :
    extract p (some (c :: r)) v = ((p (c :: r)).2, (p (c :: r)).1) := by
  unfold extract
  have : ltrim (c :: r) = c :: r := ltrim_eq_self (by intro d hd; simp at hd; exact hd ▸ h)
  simp only [this]

theorem extract_nonempty {α : Type} (p : Extractor α) {s : Str} (hne : s ≠ []) (h : ∀ c ∈ s, isSpace c = false) (rest : Str) (v : α) :
    extract p (some (s ++ rest)) v = ((p (s ++ rest)).2, (p (s ++ rest)).1) := by
  cases s with
  | nil => exact absurd rfl hne
  | cons c r => exact extract_word p (h c (by simp)) v

/-- An extractor reads back the text of a value. -/
def Reads {α : Type} (p : Extractor α) (s : Str) (v : α) : Prop :=
  s ≠ [] ∧ (∀ c ∈ s, isSpace c = false) ∧ ∀ rest, Ends rest → p (s ++ rest) = (v, some rest)

theorem Reads.extract {α : Type} {p : Extractor α} {s : Str} {x : α} (h : Reads p s x) {ws : Str}
    (hw : ∀ c ∈ ws, isSpace c = true) {rest : Str} (hr : Ends rest) (v : α) :
    extract p (some (ws ++ (s ++ rest))) v = (some rest, x) := by
  rw [extract_spaces p hw, extract_nonempty p h.1 h.2.1, h.2.2 rest hr]

theorem NumFmt.Lawful.reads {ν : Type} {f : NumFmt ν} {good : ν → Prop} {rnd : ν → ν} (h : f.Lawful good rnd) {x : ν}
    (hx : good x) : Reads f.parse (f.text x) (rnd x) := ⟨h.nonempty x, h.nospace x, h.back x hx⟩

theorem intStr_ne_nil (n : Int) : intStr n ≠ [] := by
  unfold intStr
  split
  · simp
  · exact natStr_ne_nil _

theorem natStr_no_space (n : Nat) : ∀ c ∈ natStr n, isSpace c = false :=
  fun c hc => isDigit_not_space (natStr_digits n c hc)

theorem ends_not_digit {rest : Str} (h : Ends rest) : ∀ c, rest.head? = some c → isDigit c = false := by
  intro c hc
  cases hd : isDigit c with
  | false => rfl
  | true => exact absurd (h c hc) (by simp [isDigit_not_space hd])

theorem takeWhile_digits {ds rest : Str} (hd : ∀ c ∈ ds, isDigit c = true) (hr : Ends rest) :
    (ds ++ rest).takeWhile isDigit = ds ∧ (ds ++ rest).dropWhile isDigit = rest := by
  have h := ends_not_digit hr
  induction ds with
  | nil =>
    cases rest with
    | nil => simp
    | cons a r => simp [h a rfl]
  | cons a ds ih =>
    have := ih (fun c hc => hd c (by simp [hc]))
    simp [hd a (by simp), this.1, this.2]

theorem intEx_reads (lo hi n : Int) (h1 : lo ≤ n) (h2 : n ≤ hi) : Reads (intEx lo hi) (intStr n) n := by
  refine ⟨intStr_ne_nil n, intStr_no_space n, ?_⟩
  intro rest hr
  have key := takeWhile_digits (natStr_digits n.natAbs) hr
  unfold intEx intStr
  by_cases hn : n < 0
  · rw [if_pos hn]
    simp only [List.cons_append, splitSign, key.1, key.2, natStr_ne_nil, if_true, if_false, natStr_val]
    have e : -(n.natAbs : Int) = n := by omega
    rw [e, if_neg (by omega), if_neg (by omega)]
  · rw [if_neg hn]
    simp only [splitSign_natStr, key.1, key.2, natStr_ne_nil, if_false, natStr_val]
    have e : (n.natAbs : Int) = n := by omega
    simp only [e, Bool.false_eq_true, if_false]
    rw [if_neg (by omega), if_neg (by omega)]

theorem natEx_reads (m n : Nat) (h : n < m) : Reads (natEx m) (natStr n) n := by
  refine ⟨natStr_ne_nil n, natStr_no_space n, ?_⟩
  intro rest hr
  have key := takeWhile_digits (natStr_digits n) hr
  unfold natEx
  simp only [splitSign_natStr, key.1, key.2, natStr_ne_nil, if_false, natStr_val]
  rw [if_neg (by omega)]
  simp

/-- Reading an unsigned number fails exactly if no digit follows the sign, or the digits are too large a number; 0 or the largest number is stored then. -/
theorem C92_unsigned_fails (m : Nat) (s : Str) :
    ((natEx m s).2 = none ↔ (splitSign s).2.takeWhile isDigit = [] ∨ m ≤ digitsVal ((splitSign s).2.takeWhile isDigit)) ∧
    ((splitSign s).2.takeWhile isDigit = [] → (natEx m s).1 = 0) := by
  unfold natEx
  simp only
  constructor
  · split
    · simp [*]
    · split <;> simp [*]
  · intro h; simp [h]

/-! words -/

theorem wordsGo_word {w : Str} (h : ∀ c ∈ w, isSpace c = false) (acc rest : Str) :
    wordsGo acc (w ++ rest) = wordsGo (acc ++ w) rest := by
  induction w generalizing acc with
  | nil => simp
  | cons a w ih =>
    show wordsGo acc (a :: (w ++ rest)) = _
    conv => lhs; unfold wordsGo
    rw [if_neg (by simp [h a (by simp)]), ih (fun c hc => h c (by simp [hc]))]
    simp

theorem words_space {c : Char} (h : isSpace c = true) (s : Str) : words (c :: s) = words s := by
  unfold words
  conv => lhs; unfold wordsGo
  simp [h]

theorem words_spaces {ws : Str} (h : ∀ c ∈ ws, isSpace c = true) (s : Str) : words (ws ++ s) = words s := by
  induction ws with
  | nil => rfl
  | cons a ws ih =>
    show words (a :: (ws ++ s)) = _
    rw [words_space (h a (by simp)), ih (fun c hc => h c (by simp [hc]))]

theorem words_word {w : Str} (hne : w ≠ []) (h : ∀ c ∈ w, isSpace c = false) {rest : Str} (hr : Ends rest) :
    words (w ++ rest) = w :: words rest := by
  unfold words
  rw [wordsGo_word h]
  cases rest with
  | nil => simp [wordsGo, hne]
  | cons a r =>
    have ha := hr a rfl
    conv => lhs; unfold wordsGo
    conv => rhs; arg 2; unfold wordsGo
    simp [ha, hne]

theorem words_nil : words [] = [] := rfl

theorem wordsGo_mem (s : Str) : ∀ acc : Str, (∀ c ∈ acc, isSpace c = false) →
    ∀ w ∈ wordsGo acc s, w ≠ [] ∧ ∀ c ∈ w, isSpace c = false := by
  induction s with
  | nil =>
    intro acc ha w hw
    unfold wordsGo at hw
    split at hw
    · simp at hw
    · rename_i h
      simp at hw; subst hw; exact ⟨h, ha⟩
  | cons c r ih =>
    intro acc ha w hw
    unfold wordsGo at hw
    split at hw
    · split at hw
      · exact ih [] (by simp) w hw
      · rename_i h
        rcases List.mem_cons.1 hw with e | hw
        · subst e; exact ⟨h, ha⟩
        · exact ih [] (by simp) w hw
    · rename_i h
      exact ih _ (by
        intro d hd
        rcases List.mem_append.1 hd with hd | hd
        · exact ha d hd
        · simp at hd; subst hd; simpa using h) w hw

/-- The words of a text are non-empty and contain no white space. -/
theorem words_mem {s w : Str} (h : w ∈ words s) : w ≠ [] ∧ ∀ c ∈ w, isSpace c = false :=
  wordsGo_mem s [] (by simp) w h

theorem ends_cons {c : Char} (h : isSpace c = true) (r : Str) : Ends (c :: r) := by
  intro d hd; simp at hd; exact hd ▸ h

theorem ends_nil : Ends [] := by intro d hd; simp at hd

theorem ends_spaces {ws : Str} (hw : ∀ c ∈ ws, isSpace c = true) {r : Str} (h : Ends r) : Ends (ws ++ r) := by
  cases ws with
  | nil => exact h
  | cons a ws => exact ends_cons (hw a (by simp)) _

/-- `Sep rest l s`: the text `s` is the words `l`, each preceded by white space (the first possibly by
    none), followed by `rest`. -/
inductive Sep (rest : Str) : List Str → Str → Prop
  | nil : Sep rest [] rest
  | cons {ws w t : Str} {l : List Str} (hw : ∀ c ∈ ws, isSpace c = true) (hne : w ≠ []) (hs : ∀ c ∈ w, isSpace c = false)
      (ht : Ends t) (h : Sep rest l t) : Sep rest (w :: l) (ws ++ (w ++ t))

theorem Sep.words {rest s : Str} {l : List Str} (h : Sep rest l s) : words s = l ++ words rest := by
  induction h with
  | nil => rfl
  | cons hw hne hs ht _ ih => rw [words_spaces hw, words_word hne hs ht, ih]; rfl

theorem Sep.space {rest s : Str} {l : List Str} (h : Sep rest l s) (hl : l ≠ []) {ws : Str} (hw : ∀ c ∈ ws, isSpace c = true) :
    Sep rest l (ws ++ s) := by
  cases h with
  | nil => exact absurd rfl hl
  | cons hw' hne hs ht h =>
    rw [← List.append_assoc]
    exact .cons (by
      intro c hc
      rcases List.mem_append.1 hc with hc | hc
      · exact hw c hc
      · exact hw' c hc) hne hs ht h

theorem Sep.append {rest t s : Str} {l m : List Str} (h : Sep t l s) (h' : Sep rest m t) : Sep rest (l ++ m) s := by
  induction h with
  | nil => exact h'
  | cons hw hne hs ht _ ih => exact .cons hw hne hs ht ih

/-- Reading the next word. -/
theorem Sep.extract {α : Type} {p : Extractor α} {rest w s : Str} {l : List Str} {x : α} (h : Sep rest (w :: l) s) (hp : Reads p w x) (v : α) :
    ∃ t, extract p (some s) v = (some t, x) ∧ Sep rest l t := by
  cases h with
  | cons hw hne hs ht h => exact ⟨_, hp.extract hw ht v, h⟩

/-- The text consists of these words, whatever (ending the last word) follows. -/
def IsWords (l : List Str) (s : Str) : Prop := ∀ rest, Ends rest → Sep rest l (s ++ rest)

theorem IsWords.words {l : List Str} {s : Str} (h : IsWords l s) : words s = l := by
  have := (h [] ends_nil).words
  simpa [words_nil] using this

theorem IsWords.one {w : Str} (hne : w ≠ []) (hs : ∀ c ∈ w, isSpace c = false) : IsWords [w] w := by
  intro rest hr
  have := Sep.cons (ws := []) (by simp) hne hs hr (Sep.nil (rest := rest))
  simpa using this

theorem IsWords.space {l : List Str} {s : Str} (h : IsWords l s) (hl : l ≠ []) {ws : Str} (hw : ∀ c ∈ ws, isSpace c = true) :
    IsWords l (ws ++ s) := by
  intro rest hr
  rw [List.append_assoc]
  exact (h rest hr).space hl hw

theorem IsWords.sep {l m : List Str} {s t sep : Str} (h : IsWords l s) (h' : IsWords m t) (hm : m ≠ []) (hne : sep ≠ [])
    (hs : ∀ c ∈ sep, isSpace c = true) : IsWords (l ++ m) (s ++ (sep ++ t)) := by
  intro rest hr
  have h2 := (h' rest hr).space hm hs
  have h1 := h (sep ++ (t ++ rest)) (by
    cases sep with
    | nil => exact absurd rfl hne
    | cons c sep => exact ends_cons (hs c (by simp)) _)
  have := h1.append h2
  simpa using this

theorem joinWith_cons (sep a : Str) (l : List Str) (h : l ≠ []) : joinWith sep (a :: l) = a ++ (sep ++ joinWith sep l) := by
  cases l with
  | nil => exact absurd rfl h
  | cons b l => simp [joinWith]

/-- Groups of words joined with white space. -/
theorem IsWords.join {sep : Str} (hsep : sep ≠ []) (hs : ∀ c ∈ sep, isSpace c = true) (gs : List (List Str × Str))
    (h : ∀ g ∈ gs, g.1 ≠ [] ∧ IsWords g.1 g.2) : IsWords (gs.map Prod.fst).flatten (joinWith sep (gs.map Prod.snd)) := by
  induction gs with
  | nil => intro rest _; exact .nil
  | cons g gs ih =>
    have ih := ih (fun x hx => h x (by simp [hx]))
    cases gs with
    | nil => simpa [joinWith] using (h g (by simp)).2
    | cons g' gs =>
      show IsWords (g.1 ++ ((g' :: gs).map Prod.fst).flatten) (joinWith sep (g.2 :: (g' :: gs).map Prod.snd))
      rw [joinWith_cons _ _ _ (by simp)]
      refine (h g (by simp)).2.sep ih ?_ hsep hs
      have := (h g' (by simp)).1
      simp [this]

theorem padTo_words {w : Str} (hne : w ≠ []) (hs : ∀ c ∈ w, isSpace c = false) (n : Nat) : IsWords [w] (padTo n w) := by
  unfold padTo
  exact (IsWords.one hne hs).space (by simp) (by intro c hc; rw [(List.mem_replicate.1 hc).2]; rfl)

/-- Words joined with single blanks. -/
theorem IsWords.blanks (ws : List Str) (h : ∀ w ∈ ws, w ≠ [] ∧ ∀ c ∈ w, isSpace c = false) : IsWords ws (joinWith (c!" ") ws) := by
  have := IsWords.join (sep := c!" ") (by decide) (by decide) (ws.map (fun w => ([w], w))) (by
    intro g hg
    obtain ⟨w, hw, rfl⟩ := List.mem_map.1 hg
    exact ⟨by simp, IsWords.one (h w hw).1 (h w hw).2⟩)
  simp only [List.map_map] at this
  have e1 : ∀ r : List Str, (r.map (Prod.fst ∘ fun w => ([w], w))).flatten = r := by
    intro r
    induction r with
    | nil => rfl
    | cons a r ih => simpa using ih
  have e2 : ws.map (Prod.snd ∘ fun w => ([w], w)) = ws := by
    show ws.map (fun w => w) = ws
    simp
  rw [e1, e2] at this
  exact this

/-- Eigen's output of a matrix consists of its coefficients in row order, separated by white space. -/
theorem eigenText_words (rows : List (List Str)) (h : ∀ r ∈ rows, r ≠ [] ∧ ∀ w ∈ r, w ≠ [] ∧ ∀ c ∈ w, isSpace c = false) :
    IsWords rows.flatten (eigenText rows) := by
  unfold eigenText
  generalize (rows.flatten.map List.length).foldl max 0 = width
  have hrow : ∀ r ∈ rows, IsWords r (joinWith (c!" ") (r.map (padTo width))) := by
    intro r hr
    have := IsWords.join (sep := c!" ") (by decide) (by decide) (r.map (fun w => ([w], padTo width w))) (by
      intro g hg
      obtain ⟨w, hw, rfl⟩ := List.mem_map.1 hg
      exact ⟨by simp, padTo_words ((h r hr).2 w hw).1 ((h r hr).2 w hw).2 width⟩)
    simp only [List.map_map] at this
    have e1 : (r.map (Prod.fst ∘ fun w => ([w], padTo width w))).flatten = r := by
      clear this hr
      induction r with
      | nil => rfl
      | cons a r ih => simpa using ih
    have e2 : r.map (Prod.snd ∘ fun w => ([w], padTo width w)) = r.map (padTo width) := rfl
    rw [e1, e2] at this
    exact this
  have := IsWords.join (sep := c!"\n") (by decide) (by decide) (rows.map (fun r => (r, joinWith (c!" ") (r.map (padTo width))))) (by
    intro g hg
    obtain ⟨r, hr, rfl⟩ := List.mem_map.1 hg
    exact ⟨(h r hr).1, hrow r hr⟩)
  simp only [List.map_map] at this
  have e1 : rows.map (Prod.fst ∘ fun r => (r, joinWith (c!" ") (r.map (padTo width)))) = rows := by
    show rows.map (fun r => r) = rows
    simp
  rw [e1] at this
  exact this

/-- Two groups of words with a blank between. -/
theorem IsWords.blank {l m : List Str} {s t : Str} (h : IsWords l s) (h' : IsWords m t) (hm : m ≠ []) :
    IsWords (l ++ m) (s ++ c!" " ++ t) := by
  have := h.sep h' hm (sep := c!" ") (by decide) (by decide)
  rw [← List.append_assoc] at this
  exact this

theorem Sep.done {rest s : Str} (h : Sep rest [] s) : s = rest := by cases h; rfl

/-! ### Number formats that satisfy the laws -/

/-- Integers. -/
def intFmt : NumFmt Int := { text := intStr, parse := intEx (-2147483648) 2147483647 }

theorem intFmt_lawful : intFmt.Lawful (fun n => -2147483648 ≤ n ∧ n ≤ 2147483647) id where
  nonempty := intStr_ne_nil
  nospace := intStr_no_space
  back := by intro x hx rest hr; exact (intEx_reads _ _ x hx.1 hx.2).2.2 rest hr

/-- Integers printed to the nearest lower multiple of ten: a format that loses precision. -/
def tensFmt : NumFmt Int := { text := fun n => intStr (n / 10 * 10), parse := intEx (-2147483648) 2147483647 }

theorem tensFmt_lawful : tensFmt.Lawful (fun n => -2147483640 ≤ n ∧ n ≤ 2147483647) (fun n => n / 10 * 10) where
  nonempty := fun _ => intStr_ne_nil _
  nospace := fun _ => intStr_no_space _
  back := by intro x hx rest hr; exact (intEx_reads _ _ _ (by omega) (by omega)).2.2 rest hr

end Vital.Stream
