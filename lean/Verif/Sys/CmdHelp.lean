import Verif.Sys.CmdLine
import Mathlib.Data.List.Infix
import Mathlib.Data.List.Perm.Subperm
import Mathlib.Data.List.Nodup
import Mathlib.Tactic.Choose
import Mathlib.Tactic.Tauto
/-
  Model of the help functions of vital/kwiversys/CommandLineArguments.cxx; properties C154 (memory and the wrapped text), C155 (which options
  are listed), C156 (GetHelp for one argument).

  Help texts are shorter than 2^63 characters. `none`: the code reads or writes outside an array.
-/
namespace Vital.CmdLine
open Vital

/-! ### One text -/

def isBlank (c : Char) : Bool := c = ' ' ∨ c = '\t'

/-- The loop over blanks: `ptr[cc]` is read (the index of the terminating zero is `ptr.length`). -/
-- models: vital/kwiversys/CommandLineArguments.cxx:614-622
def skipBlanks : Nat → Nat → Str → Option Str
  | 0, _, _ => none
  | n + 1, cc, ptr =>
    if ptr.length < cc then none
    else if cc = ptr.length then some ptr
    else
      match ptr with
      | [] => some []
      | c :: t => if isBlank c then skipBlanks n (cc + 1) t else skipBlanks n (cc + 1) (c :: t)

/-- The last blank at an index from 1 up to the given one, or 0. -/
-- models: vital/kwiversys/CommandLineArguments.cxx:634-640
def lastBlank (ptr : Str) : Nat → Nat
  | 0 => 0
  | k + 1 =>
    match ptr[k + 1]? with
    | some c => if isBlank c then k + 1 else lastBlank ptr k
    | none => lastBlank ptr k

/-- How many characters are written on a line. (`LineLength - maxlen` is a large number if negative; if it is 0, `ptr[0 - 1]` is read.) -/
-- models: vital/kwiversys/CommandLineArguments.cxx:630-646
def lineSkip (ll maxlen : Nat) (ptr : Str) : Option Nat :=
  if maxlen ≤ ll ∧ ll - maxlen < ptr.length then
    if ll - maxlen = 0 then none
    else
      let cc := lastBlank ptr (ll - maxlen - 1)
      some (if cc ≠ 0 then cc else ll - maxlen)
  else some ptr.length

/-- The pieces of a text. -/
-- models: vital/kwiversys/CommandLineArguments.cxx:607-652 (without the spaces before all but the first)
def wrap (ll maxlen : Nat) : Nat → Str → Option (List Str)
  | 0, _ => none
  | n + 1, text =>
    if text.length = 0 then some []
    else
      match skipBlanks (text.length + 1) 0 text with
      | none => none
      | some ptr =>
        match lineSkip ll maxlen ptr with
        | none => none
        | some skip => (wrap ll maxlen n (ptr.drop skip)).map fun r => ptr.take skip :: r

/-! ### The list of options -/

abbrev Set := OMap Str Unit
abbrev Groups := OMap Str Set

-- models: vital/kwiversys/CommandLineArguments.cxx:525-544 (first loop)
def collect : OMap Str Opt → Groups → Groups
  | [], mp => mp
  | (name, o) :: t, mp =>
    let mp := match mp.find? o.help with
      | some set => mp.insert o.help (set.insert name ())
      | none => mp
    collect t (mp.insert name (((mp.find? name).getD []).insert name ()))

/-- (Each `name` is in the map until its own turn.) -/
-- models: vital/kwiversys/CommandLineArguments.cxx:545-567 (second loop)
def mergeAliases : OMap Str Opt → Groups → Groups
  | [], mp => mp
  | (name, o) :: t, mp =>
    match mp.find? o.help with
    | some set =>
      let mp := mp.insert o.help (set.insert name ())
      let own := (mp.find? name).getD []
      let mp := mp.insert o.help ((((mp.find? o.help).getD []).keys ++ own.keys).foldl (fun s k => s.insert k ()) [])
      mergeAliases t (mp.erase name)
    | none => mergeAliases t (mp.insert name (((mp.find? name).getD []).insert name ()))

def groups (t : OMap Str Opt) : Groups := mergeAliases t (collect t [])

-- models: vital/kwiversys/CommandLineArguments.cxx:577-584
def shortLen (name : Str) : Kind → Nat
  | .flag => name.length
  | .concat => name.length + 3
  | .space => name.length + 4
  | .equal => name.length + 4
  | .multi => name.length

-- models: vital/kwiversys/CommandLineArguments.cxx:595-601
def optText (name : Str) : Kind → Str
  | .flag => name
  | .concat => name ++ c!"opt"
  | .space => name ++ c!" opt"
  | .equal => name ++ c!"=opt"
  | .multi => name ++ c!" opt opt ..."

def kindOf (t : OMap Str Opt) (name : Str) : Kind := ((t.find? name).map Opt.kind).getD .flag

-- models: vital/kwiversys/CommandLineArguments.cxx:570-590
def width (t : OMap Str Opt) (mp : Groups) : Nat := (mp.flatMap fun g => g.2.keys).foldl (fun m n => max m (shortLen n (kindOf t n))) 0

/-- `sprintf(buffer, "  %-<width>s  ", argument)`; the arrays have 100 and 80 characters. -/
-- models: vital/kwiversys/CommandLineArguments.cxx:592-606
def optLine (t : OMap Str Opt) (wd : Nat) (name : Str) : Option Str :=
  let text := optText name (kindOf t name)
  let line := c!"  " ++ text ++ List.replicate (wd - text.length) ' ' ++ c!"  "
  if text.length < 100 ∧ line.length < 80 then some ('\n' :: line) else none

def allSome : List (Option α) → Option (List α)
  | [] => some []
  | none :: _ => none
  | some a :: l => (allSome l).map (a :: ·)

/-- The lines of a help text after the options. -/
-- models: vital/kwiversys/CommandLineArguments.cxx:623-629, 647-648
def layout (indent : Nat) : List Str → Str
  | [] => []
  | l :: ls => l ++ ['\n'] ++ ls.flatMap fun l => List.replicate indent ' ' ++ l ++ ['\n']

-- models: vital/kwiversys/CommandLineArguments.cxx:588-652
def groupText (t : OMap Str Opt) (ll wd : Nat) (g : Str × Set) : Option Str :=
  match allSome (g.2.keys.map (optLine t wd)) with
  | none => none
  | some opts =>
    let help := ((t.find? g.1).map Opt.help).getD []
    (wrap ll (wd + 4) (help.length + 1) help).map fun ls => opts.flatten ++ layout (wd + 4) ls

-- models: vital/kwiversys/CommandLineArguments.cxx:517-669 (GenerateHelp)
def generateHelp (ll : Nat) (t : OMap Str Opt) : Option Str := (allSome ((groups t).map (groupText t ll (width t (groups t))))).map List.flatten

/-! ### Specification -/

theorem isBlank_iff (c : Char) : isBlank c = true ↔ c = ' ' ∨ c = '\t' := by simp [isBlank]

/-- Single blanks between words. -/
def TidyText (s : Str) : Prop := (∀ u v a b, s = u ++ a :: b :: v → ¬ (isBlank a = true ∧ isBlank b = true)) ∧ ∀ u a, s = u ++ [a] → isBlank a = false

theorem TidyText.suffix {s u v : Str} (h : TidyText s) (e : s = u ++ v) : TidyText v :=
  ⟨fun u' v' a b e' => h.1 (u ++ u') v' a b (by rw [e, e', List.append_assoc]), fun u' a e' => h.2 (u ++ u') a (by rw [e, e', List.append_assoc])⟩

theorem skip_plain : ∀ (n cc : Nat) (c : Char) (t : Str), isBlank c = false → cc ≤ (c :: t).length → (c :: t).length - cc < n → skipBlanks n cc (c :: t) = some (c :: t) := by
  intro n
  induction n with
  | zero => intro cc c t _ _ h; omega
  | succ n ih =>
    intro cc c t hc hl hn
    rw [skipBlanks, if_neg (by omega)]
    by_cases he : cc = (c :: t).length
    · rw [if_pos he]
    · rw [if_neg he]
      simp only [hc, Bool.false_eq_true, ↓reduceIte]
      exact ih (cc + 1) c t hc (by omega) (by omega)

/-- One blank, if there is one, is skipped. -/
theorem skip_tidy {s : Str} (h : TidyText s) (hne : s ≠ []) : ∃ c t, isBlank c = false ∧ skipBlanks (s.length + 1) 0 s = some (c :: t) ∧
    (s = c :: t ∨ ∃ b, isBlank b = true ∧ s = b :: c :: t) := by
  cases s with
  | nil => exact absurd rfl hne
  | cons b s =>
    by_cases hb : isBlank b = true
    · cases s with
      | nil => rw [h.2 [] b rfl] at hb; cases hb
      | cons c t =>
        have hc : isBlank c = false := by
          have := h.1 [] t b c rfl
          simpa [hb] using this
        refine ⟨c, t, hc, ?_, .inr ⟨b, hb, rfl⟩⟩
        rw [skipBlanks, if_neg (by omega), if_neg (by simp)]
        simp only [hb, ↓reduceIte]
        exact skip_plain _ _ c t hc (by simp) (by simp only [List.length_cons]; omega)
    · exact ⟨b, s, by simpa using hb, skip_plain _ _ b s (by simpa using hb) (Nat.zero_le _) (by simp), .inl rfl⟩

theorem lastBlank_le (ptr : Str) (k : Nat) : lastBlank ptr k ≤ k := by
  induction k with
  | zero => exact Nat.le_refl _
  | succ k ih =>
    rw [lastBlank]
    split
    · split <;> omega
    · omega

theorem lastBlank_blank (ptr : Str) (k : Nat) (h : lastBlank ptr k ≠ 0) : ∃ c, ptr[lastBlank ptr k]? = some c ∧ isBlank c = true := by
  induction k with
  | zero => exact absurd rfl h
  | succ k ih =>
    rw [lastBlank] at h ⊢
    split
    · rename_i c hc
      rw [hc] at h
      simp only at h
      split
      · rename_i hb; exact ⟨c, hc, hb⟩
      · rename_i hb; rw [if_neg hb] at h; exact ih h
    · rename_i hn; rw [hn] at h; exact ih h

/-- The text is cut into pieces that begin with a word character and fit into the room there is (if the options leave any), and together make up the text with at
    most a blank between two of them; a piece ends in the middle of a word only if it is as long as the room. -/
def Pieces (ll maxlen : Nat) (s : Str) (ls : List Str) : Prop :=
  (∀ l ∈ ls, l ≠ [] ∧ (maxlen ≤ ll → l.length ≤ ll - maxlen) ∧ ∃ c, l.head? = some c ∧ isBlank c = false) ∧
  ∃ seps : List Str, seps.length = ls.length ∧ s = (List.zipWith (fun a b => a ++ b) seps ls).flatten ∧
    ∀ i l, ls[i]? = some l → ∃ sep, seps[i]? = some sep ∧ (sep = [] ∨ ∃ b, isBlank b = true ∧ sep = [b]) ∧
      (sep = [] → i = 0 ∨ ∃ j p, i = j + 1 ∧ ls[j]? = some p ∧ p.length = ll - maxlen)

theorem wrap_tidy (ll maxlen : Nat) (hne : ll ≠ maxlen) : ∀ (n : Nat) (s : Str), s.length < n → TidyText s →
    ∃ ls, wrap ll maxlen n s = some ls ∧ Pieces ll maxlen s ls := by
  intro n
  induction n with
  | zero => intro s h; omega
  | succ n ih =>
    intro s hn ht
    rw [wrap]
    by_cases h0 : s.length = 0
    · rw [if_pos h0]
      have : s = [] := List.length_eq_zero_iff.1 h0
      subst this
      exact ⟨[], rfl, by simp, [], rfl, rfl, by simp⟩
    · rw [if_neg h0]
      obtain ⟨c, t, hc, hsk, hs⟩ := skip_tidy ht (fun h => h0 (by rw [h]; rfl))
      rw [hsk]
      simp only
      -- the piece
      have hskip : ∃ k, lineSkip ll maxlen (c :: t) = some k ∧ 0 < k ∧ k ≤ (c :: t).length ∧ (maxlen ≤ ll → k ≤ ll - maxlen) ∧
          ((c :: t).drop k = [] ∨ (∃ b r, (c :: t).drop k = b :: r ∧ isBlank b = true) ∨ k = ll - maxlen) := by
        have hL : 0 < (c :: t).length := by simp
        generalize hp : (c :: t) = ptr at hL ⊢
        unfold lineSkip
        by_cases hw : maxlen ≤ ll ∧ ll - maxlen < ptr.length
        · obtain ⟨hw1, hw2⟩ := hw
          rw [if_pos ⟨hw1, hw2⟩, if_neg (by omega)]
          have hle := lastBlank_le ptr (ll - maxlen - 1)
          by_cases hb : lastBlank ptr (ll - maxlen - 1) = 0
          · refine ⟨ll - maxlen, ?_, by omega, by omega, fun _ => Nat.le_refl _, .inr (.inr rfl)⟩
            show some (if lastBlank ptr (ll - maxlen - 1) ≠ 0 then lastBlank ptr (ll - maxlen - 1) else ll - maxlen) = _
            rw [if_neg (by simpa using hb)]
          · refine ⟨lastBlank ptr (ll - maxlen - 1), ?_, by omega, by omega, fun _ => by omega, .inr (.inl ?_)⟩
            · show some (if lastBlank ptr (ll - maxlen - 1) ≠ 0 then lastBlank ptr (ll - maxlen - 1) else ll - maxlen) = _
              rw [if_pos hb]
            obtain ⟨b, e1, e2⟩ := lastBlank_blank _ _ hb
            have hlt : lastBlank ptr (ll - maxlen - 1) < ptr.length := by omega
            exact ⟨_, _, List.drop_eq_getElem_cons hlt, by rw [List.getElem?_eq_getElem hlt] at e1; cases e1; exact e2⟩
        · rw [if_neg hw]
          refine ⟨ptr.length, rfl, hL, Nat.le_refl _, fun h => ?_, .inl (by simp)⟩
          have : ¬ (ll - maxlen < ptr.length) := fun h' => hw ⟨h, h'⟩
          omega
      obtain ⟨k, hk, hk0, hkl, hkw, hke⟩ := hskip
      rw [hk]
      simp only
      have hlen : (c :: t).length ≤ s.length := by rcases hs with h | ⟨b, -, h⟩ <;> rw [h] <;> simp
      have htid : TidyText ((c :: t).drop k) := by
        rcases hs with h | ⟨b, -, h⟩
        · exact ht.suffix (u := (c :: t).take k) (by rw [List.take_append_drop]; exact h)
        · exact ht.suffix (u := b :: (c :: t).take k) (by rw [List.cons_append, List.take_append_drop]; exact h)
      obtain ⟨ls, e1, e3, seps, e4, e5, e6⟩ := ih ((c :: t).drop k) (by rw [List.length_drop]; omega) htid
      rw [e1]
      obtain ⟨k', rfl⟩ : ∃ k', k = k' + 1 := ⟨k - 1, by omega⟩
      obtain ⟨sep, hsep, hst⟩ : ∃ sep : Str, (sep = [] ∨ ∃ b, isBlank b = true ∧ sep = [b]) ∧ s = sep ++ c :: t := by
        rcases hs with h | ⟨b, hb, h⟩
        · exact ⟨[], .inl rfl, h⟩
        · exact ⟨[b], .inr ⟨b, hb, rfl⟩, h⟩
      refine ⟨_, rfl, ?_, sep :: seps, by simp [e4], ?_, ?_⟩
      · intro l hl
        rcases List.mem_cons.1 hl with rfl | hl
        · exact ⟨by simp, fun h => by rw [List.length_take]; have := hkw h; omega, c, by simp, hc⟩
        · exact e3 l hl
      · rw [List.zipWith_cons_cons, List.flatten_cons, ← e5, List.append_assoc, List.take_append_drop]
        exact hst
      · intro i l hl
        cases i with
        | zero => exact ⟨sep, rfl, hsep, fun _ => .inl rfl⟩
        | succ i =>
          simp only [List.getElem?_cons_succ] at hl
          obtain ⟨sp, f1, f2, f3⟩ := e6 i l hl
          refine ⟨sp, by simpa using f1, f2, fun hnil => .inr ?_⟩
          rcases f3 hnil with hi | ⟨j, p, hj, hp, hp2⟩
          · subst hi
            refine ⟨0, (c :: t).take (k' + 1), rfl, rfl, ?_⟩
            rcases hke with h | ⟨b, r, h, hb⟩ | h
            · -- nothing follows
              rw [h] at e5
              obtain ⟨l0, ls', rfl⟩ : ∃ l0 ls', ls = l0 :: ls' := by
                cases ls with
                | nil => cases hl
                | cons l0 ls' => exact ⟨l0, ls', rfl⟩
              cases seps with
              | nil => cases e4
              | cons s0 seps' =>
                rw [List.zipWith_cons_cons, List.flatten_cons] at e5
                have := (List.append_eq_nil_iff.1 (List.append_eq_nil_iff.1 e5.symm).1).2
                exact absurd this (e3 l0 List.mem_cons_self).1
            · -- the next piece has no separator but begins with a blank
              rw [h] at e5
              cases ls with
              | nil => cases hl
              | cons l0 ls' =>
                cases seps with
                | nil => cases e4
                | cons s0 seps' =>
                  simp only [List.getElem?_cons_zero, Option.some.injEq] at f1 hl
                  subst f1 hl hnil
                  obtain ⟨-, -, c0, g1, g2⟩ := e3 l0 List.mem_cons_self
                  rw [List.zipWith_cons_cons, List.flatten_cons, List.nil_append] at e5
                  cases l0 with
                  | nil => cases g1
                  | cons x l0 =>
                    simp only [List.head?_cons, Option.some.injEq] at g1
                    simp only [List.cons_append, List.cons.injEq] at e5
                    rw [← g1, ← e5.1, hb] at g2; cases g2
            · rw [List.length_take]
              have : (c :: t).length = t.length + 1 := rfl
              omega
          · subst hj
            exact ⟨j + 1, p, rfl, by simpa using hp, hp2⟩

/-! ### C155: which options are listed -/

/-- The option's help text is a text, not the name of another option. -/
def Root (t : OMap Str Opt) (o : Opt) : Prop := o.help ∉ t.keys

instance (t : OMap Str Opt) (o : Opt) : Decidable (Root t o) := by unfold Root; infer_instance

/-- Every option has a text of its own or names an option that has. -/
def OneStep (t : OMap Str Opt) : Prop := ∀ name o o', t.find? name = some o → t.find? o.help = some o' → Root t o'

/-- The options with a text of their own, each with itself and the options that name it; all in order of the names. -/
def listing (t : OMap Str Opt) : List (Str × List Str) :=
  (t.filter fun e => Root t e.2).map fun e => (e.1, (t.filter fun e' => e'.1 = e.1 ∨ e'.2.help = e.1).map Prod.fst)

def In (mp : Groups) (k n : Str) : Prop := ∃ s, mp.find? k = some s ∧ n ∈ s.keys

/-- What holds of the map all along. -/
structure Sound (t : OMap Str Opt) (mp : Groups) : Prop where
  sorted : mp.Sorted
  sets : ∀ k s, mp.find? k = some s → s.Sorted
  bound : ∀ k n, In mp k n → ∃ o, t.find? n = some o ∧ (n = k ∨ o.help = k)
  self : ∀ k, (mp.find? k).isSome → In mp k k

theorem In.insert_iff (mp : Groups) (k : Str) (s : Set) (k' n : Str) : In (mp.insert k s) k' n ↔ if k' = k then n ∈ s.keys else In mp k' n := by
  unfold In
  rw [OMap.find?_insert]
  split
  · simp
  · rfl

theorem keys_insert (s : Set) (a n : Str) : n ∈ (s.insert a ()).keys ↔ n = a ∨ n ∈ s.keys := by
  rw [OMap.mem_keys_iff, OMap.find?_insert, OMap.mem_keys_iff]
  split <;> simp_all

/-- Adding a name to the set of a key; the key may be new. -/
theorem Sound.put {t : OMap Str Opt} {mp : Groups} (h : Sound t mp) {k n : Str} {o : Opt} (hn : t.find? n = some o) (hk : n = k ∨ o.help = k)
    (hself : n = k ∨ (mp.find? k).isSome) : Sound t (mp.insert k (((mp.find? k).getD []).insert n ())) := by
  have hin : ∀ x, x ∈ ((mp.find? k).getD []).keys ↔ In mp k x := by
    intro x
    unfold In
    cases mp.find? k <;> simp [OMap.keys]
  refine ⟨OMap.sorted_insert h.sorted _ _, ?_, ?_, ?_⟩
  · intro k' s hs
    rw [OMap.find?_insert] at hs
    split at hs
    · cases hs
      refine OMap.sorted_insert ?_ _ _
      cases hf : mp.find? k with
      | none => exact OMap.sorted_nil
      | some s => exact h.sets k s hf
    · exact h.sets k' s hs
  · intro k' x hx
    rw [In.insert_iff] at hx
    split at hx
    · rename_i he; subst he
      rw [keys_insert, hin] at hx
      rcases hx with rfl | hx
      · exact ⟨o, hn, hk⟩
      · exact h.bound _ _ hx
    · exact h.bound _ _ hx
  · intro k' hk'
    rw [In.insert_iff]
    rw [OMap.find?_insert] at hk'
    split
    · rename_i he; subst he
      rw [keys_insert, hin]
      rcases hself with e | e
      · exact .inl e.symm
      · exact .inr (h.self _ e)
    · rename_i he; rw [if_neg he] at hk'; exact h.self _ hk'

theorem put_some (mp : Groups) (k k' : Str) (s : Set) : ((mp.insert k s).find? k').isSome = true ↔ k' = k ∨ (mp.find? k').isSome = true := by
  rw [OMap.find?_insert]
  split <;> simp_all

theorem collect_spec (t : OMap Str Opt) : ∀ (rest : OMap Str Opt) (mp : Groups), (∀ e ∈ rest, t.find? e.1 = some e.2) → Sound t mp →
    Sound t (collect rest mp) ∧ ∀ k, ((collect rest mp).find? k).isSome ↔ (mp.find? k).isSome ∨ k ∈ rest.keys := by
  intro rest
  induction rest with
  | nil => intro mp _ h; exact ⟨h, fun k => by simp [collect, OMap.keys]⟩
  | cons e rest ih =>
    obtain ⟨name, o⟩ := e
    intro mp hr h
    have hn : t.find? name = some o := hr _ List.mem_cons_self
    simp only [collect]
    cases hf : mp.find? o.help with
    | some s =>
      have h1 := h.put (k := o.help) hn (.inr rfl) (.inr (by rw [hf]; rfl))
      rw [hf] at h1
      simp only [Option.getD_some] at h1 ⊢
      have h2 := h1.put (k := name) hn (.inl rfl) (.inl rfl)
      obtain ⟨g1, g2⟩ := ih _ (fun e he => hr e (List.mem_cons_of_mem _ he)) h2
      refine ⟨g1, fun k => ?_⟩
      rw [g2, put_some, put_some]
      simp only [OMap.keys, List.map_cons, List.mem_cons]
      constructor
      · rintro ((h | h | h) | h)
        · exact .inr (.inl h)
        · subst h; exact .inl (by rw [hf]; rfl)
        · exact .inl h
        · exact .inr (.inr h)
      · rintro (h | h | h)
        · exact .inl (.inr (.inr h))
        · exact .inl (.inl h)
        · exact .inr h
    | none =>
      have h2 := h.put (k := name) hn (.inl rfl) (.inl rfl)
      obtain ⟨g1, g2⟩ := ih _ (fun e he => hr e (List.mem_cons_of_mem _ he)) h2
      refine ⟨g1, fun k => ?_⟩
      rw [g2, put_some]
      simp only [OMap.keys, List.map_cons, List.mem_cons]
      constructor
      · rintro ((h | h) | h)
        · exact .inr (.inl h)
        · exact .inl h
        · exact .inr (.inr h)
      · rintro (h | h | h)
        · exact .inl (.inr h)
        · exact .inl (.inl h)
        · exact .inr h

theorem foldl_insert_keys (l : List Str) : ∀ s : Set, (∀ n, n ∈ (l.foldl (fun s k => s.insert k ()) s).keys ↔ n ∈ l ∨ n ∈ s.keys) ∧
    (s.Sorted → (l.foldl (fun s k => s.insert k ()) s : Set).Sorted) := by
  induction l with
  | nil => intro s; exact ⟨fun n => by simp, fun h => h⟩
  | cons a l ih =>
    intro s
    obtain ⟨h1, h2⟩ := ih (s.insert a ())
    refine ⟨fun n => ?_, fun h => h2 (OMap.sorted_insert h _ _)⟩
    rw [List.foldl_cons, h1, keys_insert, List.mem_cons]
    constructor
    · rintro (h | h | h)
      · exact .inl (.inr h)
      · exact .inl (.inl h)
      · exact .inr h
    · rintro ((h | h) | h)
      · exact .inr (.inl h)
      · exact .inl h
      · exact .inr (.inr h)

theorem merge_spec (t : OMap Str Opt) (hone : OneStep t) : ∀ (rest : OMap Str Opt) (mp : Groups), (∀ e ∈ rest, t.find? e.1 = some e.2) → rest.keys.Nodup → Sound t mp →
    (∀ k, (mp.find? k).isSome ↔ (∃ o, t.find? k = some o ∧ Root t o) ∨ k ∈ rest.keys) →
    (∀ n o, t.find? n = some o → ¬ Root t o → n ∉ rest.keys → In mp o.help n) →
    Sound t (mergeAliases rest mp) ∧ (∀ k, ((mergeAliases rest mp).find? k).isSome ↔ ∃ o, t.find? k = some o ∧ Root t o) ∧
      ∀ n o, t.find? n = some o → ¬ Root t o → In (mergeAliases rest mp) o.help n := by
  intro rest
  induction rest with
  | nil => intro mp _ _ h h1 h2; exact ⟨h, fun k => by rw [mergeAliases, h1]; simp [OMap.keys], fun n o h3 h4 => h2 n o h3 h4 (by simp [OMap.keys])⟩
  | cons e rest ih =>
    obtain ⟨name, o⟩ := e
    intro mp hr hnd h h1 h2
    have hn : t.find? name = some o := hr _ List.mem_cons_self
    have hnd' := List.nodup_cons.1 hnd
    have hin : (mp.find? name).isSome = true := (h1 name).2 (.inr List.mem_cons_self)
    simp only [mergeAliases]
    cases hf : mp.find? o.help with
    | none =>
      have hroot : Root t o := by
        intro hk
        rw [OMap.mem_keys_iff] at hk
        obtain ⟨o', ho'⟩ := Option.isSome_iff_exists.1 hk
        have := (h1 o.help).2 (.inl ⟨o', ho', hone name o o' hn ho'⟩)
        rw [hf] at this; cases this
      have h3 := h.put (k := name) hn (.inl rfl) (.inl rfl)
      refine ih _ (fun e he => hr e (List.mem_cons_of_mem _ he)) hnd'.2 h3 ?_ ?_
      · intro k
        rw [put_some, h1]
        simp only [OMap.keys, List.map_cons, List.mem_cons]
        constructor
        · rintro (rfl | h | rfl | h)
          · exact .inl ⟨o, hn, hroot⟩
          · exact .inl h
          · exact .inl ⟨o, hn, hroot⟩
          · exact .inr h
        · rintro (h | h)
          · exact .inr (.inl h)
          · exact .inr (.inr (.inr h))
      · intro n o' hn' hro' hnr
        have hne : n ≠ name := by rintro rfl; rw [hn] at hn'; cases hn'; exact hro' hroot
        have := h2 n o' hn' hro' (by simp only [OMap.keys, List.map_cons, List.mem_cons, not_or]; exact ⟨hne, hnr⟩)
        rw [In.insert_iff]
        split
        · rename_i he
          rw [keys_insert]
          right
          obtain ⟨s, e1, e2⟩ := this
          rw [he] at e1
          rw [e1]; exact e2
        · exact this
    | some set =>
      have hsome : (mp.find? o.help).isSome = true := by rw [hf]; rfl
      -- the option named is listed on its own
      obtain ⟨o', ho'⟩ : ∃ o', t.find? o.help = some o' := by
        obtain ⟨s, e1, e2⟩ := h.self _ hsome
        obtain ⟨o', ho', -⟩ := h.bound _ _ ⟨s, e1, e2⟩
        exact ⟨o', ho'⟩
      have hroot' := hone name o o' hn ho'
      have hnroot : ¬ Root t o := fun hr => hr ((OMap.mem_keys_iff _ _).2 (by rw [ho']; rfl))
      have hne : name ≠ o.help := by
        intro he
        rw [← he, hn] at ho'; cases ho'; exact hnroot hroot'
      simp only
      rw [OMap.find?_insert_self, OMap.find?_insert, if_neg hne]
      -- its own set has nothing but itself
      obtain ⟨own, hown⟩ := Option.isSome_iff_exists.1 hin
      have hownk : ∀ x, x ∈ own.keys → x = name := by
        intro x hx
        obtain ⟨ox, hox, hx'⟩ := h.bound name x ⟨own, hown, hx⟩
        rcases hx' with e | e
        · exact e
        · exact absurd (hone x ox o hox (by rw [e]; exact hn)) hnroot
      simp only [hown, Option.getD_some]
      obtain ⟨f1, f2⟩ := foldl_insert_keys ((set.insert name ()).keys ++ own.keys) []
      generalize hbig : (List.foldl (fun s k => OMap.insert s k ()) [] ((set.insert name ()).keys ++ own.keys) : Set) = big at f1 f2
      have hbk : ∀ n, n ∈ big.keys ↔ n = name ∨ n ∈ set.keys := by
        intro n
        rw [f1, List.mem_append, keys_insert]
        simp only [OMap.keys, List.map_nil, List.not_mem_nil, or_false]
        constructor
        · rintro (h | h)
          · exact h
          · exact .inl (hownk n h)
        · exact .inl
      have hfind : ∀ k, (((mp.insert o.help (set.insert name ())).insert o.help big).erase name).find? k = if k = name then none else if k = o.help then some big else mp.find? k := by
        intro k
        rw [OMap.find?_erase, OMap.find?_insert, OMap.find?_insert]
        split
        · rfl
        · split <;> rfl
      have hIn : ∀ k n, In (((mp.insert o.help (set.insert name ())).insert o.help big).erase name) k n ↔ k ≠ name ∧ (In mp k n ∨ (k = o.help ∧ n = name)) := by
        intro k n
        unfold In
        rw [hfind]
        by_cases hk : k = name
        · simp [hk]
        · by_cases hk2 : k = o.help
          · subst hk2
            simp only [if_neg hk, ↓reduceIte, Option.some.injEq, exists_eq_left', hbk, ne_eq, hk, not_false_eq_true, true_and, hf]
            tauto
          · simp [hk, hk2]
      refine ih _ (fun e he => hr e (List.mem_cons_of_mem _ he)) hnd'.2 ?_ ?_ ?_
      · refine ⟨OMap.sorted_erase (OMap.sorted_insert (OMap.sorted_insert h.sorted _ _) _ _) _, ?_, ?_, ?_⟩
        · intro k s hs
          rw [hfind] at hs
          split at hs
          · cases hs
          · split at hs
            · cases hs; exact f2 OMap.sorted_nil
            · exact h.sets k s hs
        · intro k n hkn
          rcases ((hIn k n).1 hkn).2 with h' | ⟨rfl, rfl⟩
          · exact h.bound _ _ h'
          · exact ⟨o, hn, .inr rfl⟩
        · intro k hk
          rw [hfind] at hk
          rw [hIn]
          split at hk
          · cases hk
          · rename_i hne'
            refine ⟨hne', .inl (h.self k ?_)⟩
            split at hk
            · rename_i he; rw [he]; exact hsome
            · exact hk
      · intro k
        have e : ((((mp.insert o.help (set.insert name ())).insert o.help big).erase name).find? k).isSome ↔ k ≠ name ∧ (mp.find? k).isSome := by
          rw [hfind]
          by_cases hk : k = name
          · simp [hk]
          · by_cases hk2 : k = o.help
            · simp only [hk2, Ne.symm hne, ↓reduceIte, Option.isSome_some, ne_eq, not_false_eq_true, true_and, hsome]
            · simp [hk, hk2]
        rw [e, h1]
        simp only [OMap.keys, List.map_cons, List.mem_cons]
        constructor
        · rintro ⟨h3, h4 | h4 | h4⟩
          · exact .inl h4
          · exact absurd h4 h3
          · exact .inr h4
        · rintro (⟨ok, h4, h5⟩ | h4)
          · refine ⟨?_, .inl ⟨ok, h4, h5⟩⟩
            rintro rfl; rw [hn] at h4; cases h4; exact hnroot h5
          · refine ⟨?_, .inr (.inr h4)⟩
            rintro rfl; exact hnd'.1 h4
      · intro n on hn' hro' hnr
        rw [hIn]
        refine ⟨?_, ?_⟩
        · rintro he
          exact hnroot (hone n on o hn' (by rw [he]; exact hn))
        · by_cases he : n = name
          · subst he; rw [hn] at hn'; cases hn'; exact .inr ⟨rfl, rfl⟩
          · exact .inl (h2 n on hn' hro' (by simp only [OMap.keys, List.map_cons, List.mem_cons, not_or]; exact ⟨he, hnr⟩))

/-- C155, if every option has a text of its own or names one that has: the groups of the help are those options, each with itself and the options that name it. -/
theorem C155_groups_partial (t : OMap Str Opt) (ht : t.Sorted) (hone : OneStep t) : (groups t).map (fun g => (g.1, g.2.keys)) = listing t := by
  have hmem : ∀ e ∈ t, t.find? e.1 = some e.2 := fun e he => OMap.mem_find? ht he
  obtain ⟨c1, c2⟩ := collect_spec t t [] hmem (by
    refine ⟨OMap.sorted_nil, ?_, ?_, ?_⟩
    · intro k s h; cases h
    · rintro k n ⟨s, h, -⟩; cases h
    · intro k h; cases h)
  obtain ⟨m1, m2, m3⟩ := merge_spec t hone t (collect t []) hmem (OMap.keys_nodup ht) c1 (fun k => by
      rw [c2]
      constructor
      · rintro (h | h)
        · cases h
        · exact .inr h
      · rintro (⟨o, h, -⟩ | h)
        · exact .inr ((OMap.mem_keys_iff _ _).2 (by rw [h]; rfl))
        · exact .inr h)
    (fun n o h _ hn => absurd ((OMap.mem_keys_iff _ _).2 (by rw [h]; rfl)) hn)
  have hG : groups t = ((t.filter fun e => Root t e.2).map fun e => (e.1, (t.filter fun e' => e'.1 = e.1 ∨ e'.2.help = e.1).map fun e' => (e'.1, ())) : Groups) := by
    have hsub : ∀ p : Str × Opt → Bool, (t.filter p).Pairwise (fun a b => KeyOrd.lt a.1 b.1 = true) := fun p => List.Pairwise.sublist List.filter_sublist ht
    have hs' : OMap.Sorted ((t.filter fun e => Root t e.2).map fun e => (e.1, (t.filter fun e' => e'.1 = e.1 ∨ e'.2.help = e.1).map fun e' => (e'.1, ())) : Groups) := by
      unfold OMap.Sorted
      rw [List.pairwise_map]
      exact hsub _
    have hset : ∀ k s, (groups t).find? k = some s → s = ((t.filter fun e' => e'.1 = k ∨ e'.2.help = k).map fun e' => (e'.1, ()) : Set) := by
      intro k s hs
      obtain ⟨o, ho, hro⟩ := (m2 k).1 (by unfold groups at hs; rw [hs]; rfl)
      apply OMap.ext_of_sorted (m1.sets k s hs)
      · unfold OMap.Sorted
        rw [List.pairwise_map]
        exact hsub _
      · intro n
        have hk : ∀ m : Set, m.find? n = if n ∈ m.keys then some () else none := by
          intro m
          split
          · rename_i h; rw [OMap.mem_keys_iff] at h; cases hh : m.find? n with
            | none => rw [hh] at h; cases h
            | some u => rfl
          · rename_i h; rw [OMap.mem_keys_iff] at h; cases hh : m.find? n with
            | none => rfl
            | some u => rw [hh] at h; exact absurd rfl h
        rw [hk, hk]
        have : n ∈ s.keys ↔ n ∈ OMap.keys ((t.filter fun e' => e'.1 = k ∨ e'.2.help = k).map fun e' => (e'.1, ()) : Set) := by
          have h1 : n ∈ OMap.keys ((t.filter fun e' => e'.1 = k ∨ e'.2.help = k).map fun e' => (e'.1, ()) : Set) ↔ ∃ on, t.find? n = some on ∧ (n = k ∨ on.help = k) := by
            simp only [OMap.keys, List.mem_map, List.mem_filter, decide_eq_true_eq]
            constructor
            · rintro ⟨_, ⟨⟨a, oa⟩, ⟨h1, h2⟩, rfl⟩, rfl⟩
              exact ⟨oa, hmem _ h1, h2⟩
            · rintro ⟨on, h1, h2⟩
              exact ⟨(n, ()), ⟨(n, on), ⟨OMap.find?_mem h1, h2⟩, rfl⟩, rfl⟩
          rw [h1]
          constructor
          · intro h
            exact m1.bound k n ⟨s, hs, h⟩
          · rintro ⟨on, h1, h2⟩
            by_cases hnk : n = k
            · subst hnk
              obtain ⟨s', e1, e2⟩ := m1.self n (by unfold groups at hs; rw [hs]; rfl)
              unfold groups at hs
              rw [hs] at e1; cases e1; exact e2
            · have he := h2.resolve_left hnk
              obtain ⟨s', e1, e2⟩ := m3 n on h1 (fun hr => hr (by rw [he]; exact (OMap.mem_keys_iff _ _).2 (by rw [ho]; rfl)))
              rw [he] at e1
              unfold groups at hs
              rw [hs] at e1; cases e1; exact e2
        simp only [this]
    apply OMap.ext_of_sorted m1.sorted hs'
    intro k
    cases hk : (groups t).find? k with
    | some s =>
      have hse := hset k s hk
      obtain ⟨o, ho, hro⟩ := (m2 k).1 (by unfold groups at hk; rw [hk]; rfl)
      unfold groups at hk
      rw [hk, hse]
      symm
      apply OMap.mem_find? hs'
      rw [List.mem_map]
      exact ⟨(k, o), List.mem_filter.2 ⟨OMap.find?_mem ho, by simpa using hro⟩, rfl⟩
    | none =>
      unfold groups at hk
      rw [hk]
      symm
      cases hf : OMap.find? ((t.filter fun e => Root t e.2).map fun e => (e.1, (t.filter fun e' => e'.1 = e.1 ∨ e'.2.help = e.1).map fun e' => (e'.1, ())) : Groups) k with
      | none => rfl
      | some s =>
        obtain ⟨⟨a, oa⟩, h1, h2⟩ := List.mem_map.1 (OMap.find?_mem hf)
        rw [List.mem_filter] at h1
        simp only [Prod.mk.injEq] at h2
        have := (m2 k).2 ⟨oa, by rw [← h2.1]; exact hmem _ h1.1, by simpa using h1.2⟩
        rw [hk] at this; cases this
  rw [hG]
  unfold listing
  rw [List.map_map]
  apply List.map_congr_left
  intro e _
  simp only [Function.comp, OMap.keys, List.map_map, Prod.mk.injEq, true_and]
  apply List.map_congr_left
  intro e' _
  rfl

/-! ### The whole text -/

theorem allSome_map {α β : Type} {f : α → Option β} {g : α → β} {l : List α} (h : ∀ x ∈ l, f x = some (g x)) : allSome (l.map f) = some (l.map g) := by
  induction l with
  | nil => rfl
  | cons a l ih =>
    rw [List.map_cons, h a List.mem_cons_self, allSome, ih (fun x hx => h x (List.mem_cons_of_mem _ hx))]
    rfl

/-- Only registered names get into the map. -/
def Within (t : OMap Str Opt) (mp : Groups) : Prop := ∀ k s, mp.find? k = some s → (t.find? k).isSome ∧ ∀ n ∈ s.keys, (t.find? n).isSome

theorem Within.insert {t : OMap Str Opt} {mp : Groups} (h : Within t mp) {k : Str} {s : Set} (hk : (t.find? k).isSome) (hs : ∀ n ∈ s.keys, (t.find? n).isSome) : Within t (mp.insert k s) := by
  intro k' s' h'
  rw [OMap.find?_insert] at h'
  split at h'
  · rename_i he; cases h'; subst he; exact ⟨hk, hs⟩
  · exact h k' s' h'

theorem Within.getD {t : OMap Str Opt} {mp : Groups} (h : Within t mp) (k : Str) : ∀ n ∈ ((mp.find? k).getD []).keys, (t.find? n).isSome := by
  intro n hn
  cases hf : mp.find? k with
  | none => rw [hf] at hn; cases hn
  | some s => rw [hf] at hn; exact (h k s hf).2 n hn

theorem Within.own {t : OMap Str Opt} {mp : Groups} (h : Within t mp) {name : Str} (hn : (t.find? name).isSome) : Within t (mp.insert name (((mp.find? name).getD []).insert name ())) := by
  refine h.insert hn fun n hn' => ?_
  rcases (keys_insert _ _ _).1 hn' with rfl | hn'
  · exact hn
  · exact h.getD name n hn'

theorem within_collect (t : OMap Str Opt) : ∀ (rest : OMap Str Opt) (mp : Groups), (∀ e ∈ rest, (t.find? e.1).isSome) → mp.Sorted → Within t mp →
    (collect rest mp).Sorted ∧ Within t (collect rest mp) := by
  intro rest
  induction rest with
  | nil => intro mp _ hs h; exact ⟨hs, h⟩
  | cons e rest ih =>
    obtain ⟨name, o⟩ := e
    intro mp hr hs h
    have hn := hr _ List.mem_cons_self
    simp only [collect]
    cases hf : mp.find? o.help with
    | none => exact ih _ (fun e he => hr e (List.mem_cons_of_mem _ he)) (OMap.sorted_insert hs _ _) (h.own hn)
    | some s =>
      have h1 : Within t (mp.insert o.help (s.insert name ())) := by
        refine h.insert (h _ _ hf).1 fun n hn' => ?_
        rcases (keys_insert _ _ _).1 hn' with rfl | hn'
        · exact hn
        · exact (h _ _ hf).2 n hn'
      exact ih _ (fun e he => hr e (List.mem_cons_of_mem _ he)) (OMap.sorted_insert (OMap.sorted_insert hs _ _) _ _) (h1.own hn)

theorem within_merge (t : OMap Str Opt) : ∀ (rest : OMap Str Opt) (mp : Groups), (∀ e ∈ rest, (t.find? e.1).isSome) → mp.Sorted → Within t mp →
    (mergeAliases rest mp).Sorted ∧ Within t (mergeAliases rest mp) := by
  intro rest
  induction rest with
  | nil => intro mp _ hs h; exact ⟨hs, h⟩
  | cons e rest ih =>
    obtain ⟨name, o⟩ := e
    intro mp hr hs h
    have hn := hr _ List.mem_cons_self
    simp only [mergeAliases]
    cases hf : mp.find? o.help with
    | none => exact ih _ (fun e he => hr e (List.mem_cons_of_mem _ he)) (OMap.sorted_insert hs _ _) (h.own hn)
    | some s =>
      have h1 : Within t (mp.insert o.help (s.insert name ())) := by
        refine h.insert (h _ _ hf).1 fun n hn' => ?_
        rcases (keys_insert _ _ _).1 hn' with rfl | hn'
        · exact hn
        · exact (h _ _ hf).2 n hn'
      refine ih _ (fun e he => hr e (List.mem_cons_of_mem _ he)) (OMap.sorted_erase (OMap.sorted_insert (OMap.sorted_insert hs _ _) _ _) _) ?_
      have h2 := h1.insert (k := o.help) (s := ((((mp.insert o.help (s.insert name ())).find? o.help).getD []).keys ++ (((mp.insert o.help (s.insert name ())).find? name).getD []).keys).foldl (fun s k => s.insert k ()) [])
        (h _ _ hf).1 (fun n hn' => by
          rcases ((foldl_insert_keys _ []).1 n).1 hn' with hn' | hn'
          · rcases List.mem_append.1 hn' with hn' | hn'
            · exact h1.getD _ _ hn'
            · exact h1.getD _ _ hn'
          · cases hn')
      intro k s' h'
      rw [OMap.find?_erase] at h'
      split at h'
      · cases h'
      · exact h2 k s' h'

theorem foldl_max_spec (f : Str → Nat) : ∀ (l : List Str) (m : Nat), m ≤ l.foldl (fun m n => max m (f n)) m ∧ (∀ n ∈ l, f n ≤ l.foldl (fun m n => max m (f n)) m) ∧
    (l.foldl (fun m n => max m (f n)) m = m ∨ ∃ n ∈ l, l.foldl (fun m n => max m (f n)) m = f n) := by
  intro l
  induction l with
  | nil => intro m; exact ⟨Nat.le_refl _, by simp, .inl rfl⟩
  | cons a l ih =>
    intro m
    obtain ⟨h1, h2, h3⟩ := ih (max m (f a))
    rw [List.foldl_cons]
    refine ⟨by omega, ?_, ?_⟩
    · intro n hn
      rcases List.mem_cons.1 hn with rfl | hn
      · omega
      · exact h2 n hn
    · rcases h3 with h3 | ⟨n, hn, h3⟩
      · rcases Nat.le_total (f a) m with h | h
        · rw [Nat.max_eq_left h] at h3; left; rw [Nat.max_eq_left h]; exact h3
        · rw [Nat.max_eq_right h] at h3; right; exact ⟨a, List.mem_cons_self, by rw [Nat.max_eq_right h]; exact h3⟩
      · exact .inr ⟨n, List.mem_cons_of_mem _ hn, h3⟩

/-- The line of an option. -/
def optionLine (t : OMap Str Opt) (w : Nat) (n : Str) : Str :=
  c!"\n  " ++ optText n (kindOf t n) ++ List.replicate (w - (optText n (kindOf t n)).length) ' ' ++ c!"  "

theorem short_le (n : Str) (k : Kind) : shortLen n k ≤ (optText n k).length := by
  cases k <;> simp [shortLen, optText]

theorem help_text (ll : Nat) (t : OMap Str Opt) (ht : t.Sorted) (hll : 9 ≤ ll)
    (h : ∀ name o, t.find? name = some o → (optText name o.kind).length ≤ 75 ∧ ll ≠ shortLen name o.kind + 4 ∧ TidyText o.help) :
    ∃ (w : Nat) (pieces : Str → List Str), w = width t (groups t) ∧ (∀ name o, t.find? name = some o → Pieces ll (w + 4) o.help (pieces name)) ∧
      generateHelp ll t = some ((groups t).flatMap fun g => g.2.keys.flatMap (optionLine t w) ++ layout (w + 4) (pieces g.1)) := by
  have hmem : ∀ e ∈ t, (t.find? e.1).isSome := fun e he => by rw [OMap.mem_find? ht he]; rfl
  have hc := within_collect t t [] hmem OMap.sorted_nil (fun k s h => by cases h)
  obtain ⟨hsorted, hw⟩ := within_merge t t (collect t []) hmem hc.1 hc.2
  have hg : ∀ g ∈ groups t, (t.find? g.1).isSome ∧ ∀ n ∈ g.2.keys, (t.find? n).isSome := fun g hg => hw g.1 g.2 (OMap.mem_find? hsorted hg)
  have hkind : ∀ name o, t.find? name = some o → kindOf t name = o.kind := fun name o ho => by unfold kindOf; rw [ho]; rfl
  have hnames : ∀ n ∈ (groups t).flatMap (fun g => g.2.keys), ∃ o, t.find? n = some o := by
    intro n hn
    obtain ⟨g, hg1, hg2⟩ := List.mem_flatMap.1 hn
    exact Option.isSome_iff_exists.1 ((hg g hg1).2 n hg2)
  obtain ⟨-, w2, w3⟩ := foldl_max_spec (fun n => shortLen n (kindOf t n)) ((groups t).flatMap fun g => g.2.keys) 0
  have hwd : ll ≠ width t (groups t) + 4 ∧ width t (groups t) ≤ 75 := by
    unfold width
    rcases w3 with e | ⟨n, hn, e⟩
    · rw [e]; omega
    · rw [e]
      obtain ⟨o, ho⟩ := hnames n hn
      have := h n o ho
      have h2 := short_le n o.kind
      rw [hkind n o ho]; omega
  generalize hwe : width t (groups t) = w at hwd
  have hp : ∀ name, ∃ ls, ∀ o, t.find? name = some o → wrap ll (w + 4) (o.help.length + 1) o.help = some ls ∧ Pieces ll (w + 4) o.help ls := by
    intro name
    cases hf : t.find? name with
    | none => exact ⟨[], fun o h => by cases h⟩
    | some o =>
      obtain ⟨ls, h1, h2⟩ := wrap_tidy ll (w + 4) (by omega) (o.help.length + 1) o.help (Nat.lt_succ_self _) (h name o hf).2.2
      exact ⟨ls, fun o' h' => by cases h'; exact ⟨h1, h2⟩⟩
  choose pieces hpieces using hp
  refine ⟨w, pieces, rfl, fun name o ho => (hpieces name o ho).2, ?_⟩
  unfold generateHelp
  rw [hwe, allSome_map (g := fun g => g.2.keys.flatMap (optionLine t w) ++ layout (w + 4) (pieces g.1))]
  · rw [List.flatMap_def]; rfl
  · intro g hgm
    obtain ⟨h1, h2⟩ := hg g hgm
    unfold groupText
    rw [allSome_map (g := optionLine t w)]
    · obtain ⟨o, ho⟩ := Option.isSome_iff_exists.1 h1
      simp only [ho, Option.map_some, Option.getD_some]
      rw [(hpieces g.1 o ho).1]
      rw [List.flatMap_def]; rfl
    · intro n hn
      obtain ⟨o, ho⟩ := Option.isSome_iff_exists.1 (h2 n hn)
      have hl := (h n o ho).1
      unfold optLine optionLine
      rw [hkind n o ho]
      simp only
      rw [if_pos]
      · rfl
      · refine ⟨by omega, ?_⟩
        simp only [List.length_append, List.length_replicate, List.length_cons, List.length_nil]
        omega

/-- C154, if no option is longer than 75 characters, the line length is not the width of the options plus 4, and the texts have single blanks between words:
    the help is generated without reading or writing outside an array. -/
theorem C154_memory_partial (ll : Nat) (t : OMap Str Opt) (ht : t.Sorted) (hll : 9 ≤ ll)
    (h : ∀ name o, t.find? name = some o → (optText name o.kind).length ≤ 75 ∧ ll ≠ shortLen name o.kind + 4 ∧ TidyText o.help) : ∃ text, generateHelp ll t = some text := by
  obtain ⟨w, ps, -, -, e⟩ := help_text ll t ht hll h
  exact ⟨_, e⟩

def HelpSafe : Prop := ∀ (ll : Nat) (t : OMap Str Opt), t.Sorted → 9 ≤ ll → ll ≤ 1000 → ∃ text, generateHelp ll t = some text

/-- An option with a name of 77 characters, as registered first. -/
def longName : OMap Str Opt := (Obj.new.add (List.replicate 77 '-') ⟨.flag, .nothing, c!"x"⟩).table
/-- An option with a blank for a text. -/
def blankHelp : OMap Str Opt := (Obj.new.add (c!"-a") ⟨.flag, .nothing, c!" "⟩).table
/-- An option as long as the line (less the four spaces). -/
def fullWidth : OMap Str Opt := (Obj.new.add (c!"--abc") ⟨.flag, .nothing, c!"x"⟩).table

/-- C154 is violated: `buffer` is too short for an option of 77 characters. -/
theorem C154_refuted_name : generateHelp 80 longName = none ∧ generateHelp 1000 longName = none ∧ ¬ HelpSafe :=
  have e : generateHelp 80 longName = none := by decide +kernel
  ⟨e, by decide +kernel, fun h => by obtain ⟨x, hx⟩ := h 80 longName sorted_of_new (by omega) (by omega); rw [e] at hx; cases hx⟩

/-- C154 is violated: a text that is a blank is read beyond its end. -/
theorem C154_refuted_blank : generateHelp 80 blankHelp = none ∧ ¬ HelpSafe :=
  have e : generateHelp 80 blankHelp = none := by decide +kernel
  ⟨e, fun h => by obtain ⟨x, hx⟩ := h 80 blankHelp sorted_of_new (by omega) (by omega); rw [e] at hx; cases hx⟩

/-- C154 is violated: with a line length of 9 and an option of 5 characters, the character before the text is read. -/
theorem C154_refuted_width : generateHelp 9 fullWidth = none ∧ ¬ HelpSafe :=
  have e : generateHelp 9 fullWidth = none := by decide +kernel
  ⟨e, fun h => by obtain ⟨x, hx⟩ := h 9 fullWidth sorted_of_new (by omega) (by omega); rw [e] at hx; cases hx⟩

theorem mem_listing {t : OMap Str Opt} (ht : t.Sorted) (hone : OneStep t) (n : Str) : n ∈ (listing t).flatMap (fun g => g.2) ↔ n ∈ t.keys := by
  unfold listing
  rw [List.mem_flatMap]
  constructor
  · rintro ⟨g, hg, hn⟩
    obtain ⟨e, -, rfl⟩ := List.mem_map.1 hg
    obtain ⟨b, hb, rfl⟩ := List.mem_map.1 hn
    exact List.mem_map.2 ⟨b, (List.mem_filter.1 hb).1, rfl⟩
  · intro hn
    obtain ⟨⟨a, oa⟩, ha, rfl⟩ := List.mem_map.1 hn
    have hf := OMap.mem_find? ht ha
    by_cases hr : Root t oa
    · exact ⟨_, List.mem_map.2 ⟨(a, oa), List.mem_filter.2 ⟨ha, by simpa using hr⟩, rfl⟩, List.mem_map.2 ⟨(a, oa), List.mem_filter.2 ⟨ha, by simp⟩, rfl⟩⟩
    · have hr := Classical.not_not.1 hr
      rw [OMap.mem_keys_iff] at hr
      obtain ⟨o', ho'⟩ := Option.isSome_iff_exists.1 hr
      have hro := hone a oa o' hf ho'
      exact ⟨_, List.mem_map.2 ⟨(oa.help, o'), List.mem_filter.2 ⟨OMap.find?_mem ho', by simpa using hro⟩, rfl⟩, List.mem_map.2 ⟨(a, oa), List.mem_filter.2 ⟨ha, by simp⟩, rfl⟩⟩

/-- C155: the text is, for each group, the lines of its options and the pieces of its text. -/
theorem C155_help_partial (ll : Nat) (t : OMap Str Opt) (ht : t.Sorted) (hone : OneStep t) (hll : 9 ≤ ll)
    (h : ∀ name o, t.find? name = some o → (optText name o.kind).length ≤ 75 ∧ ll ≠ shortLen name o.kind + 4 ∧ TidyText o.help) :
    ∃ (w : Nat) (pieces : Str → List Str), (∀ name o, t.find? name = some o → shortLen name o.kind ≤ w ∧ Pieces ll (w + 4) o.help (pieces name)) ∧
      (t ≠ [] → ∃ name o, t.find? name = some o ∧ w = shortLen name o.kind) ∧
      generateHelp ll t = some ((listing t).flatMap fun g => g.2.flatMap (optionLine t w) ++ layout (w + 4) (pieces g.1)) := by
  obtain ⟨w, ps, hw, hp, e⟩ := help_text ll t ht hll h
  have hl := C155_groups_partial t ht hone
  obtain ⟨-, w2, w3⟩ := foldl_max_spec (fun n => shortLen n (kindOf t n)) ((groups t).flatMap fun g => g.2.keys) 0
  have hkind : ∀ name o, t.find? name = some o → kindOf t name = o.kind := fun name o ho => by unfold kindOf; rw [ho]; rfl
  have hin : ∀ n, n ∈ (groups t).flatMap (fun g => g.2.keys) ↔ n ∈ t.keys := by
    intro n
    have : (groups t).flatMap (fun g => g.2.keys) = (listing t).flatMap (fun g => g.2) := by rw [← hl, List.flatMap_map]
    rw [this]
    exact mem_listing ht hone n
  refine ⟨w, ps, fun name o ho => ⟨?_, hp name o ho⟩, ?_, ?_⟩
  · rw [hw, ← hkind name o ho]
    exact w2 name ((hin name).2 ((OMap.mem_keys_iff _ _).2 (by rw [ho]; rfl)))
  · intro hne
    rcases w3 with e0 | ⟨n, hn, e0⟩
    · obtain ⟨⟨a, oa⟩, t', rfl⟩ := List.exists_cons_of_ne_nil hne
      have hf := OMap.mem_find? ht (List.mem_cons_self (a := (a, oa)))
      refine ⟨a, oa, hf, ?_⟩
      have h1 := w2 a ((hin a).2 ((OMap.mem_keys_iff _ _).2 (by rw [hf]; rfl)))
      have h2 : w = 0 := by rw [hw]; exact e0
      rw [hkind a oa hf, e0] at h1
      omega
    · have hk := (hin n).1 hn
      rw [OMap.mem_keys_iff] at hk
      obtain ⟨o, ho⟩ := Option.isSome_iff_exists.1 hk
      exact ⟨n, o, ho, by rw [hw, ← hkind n o ho]; exact e0⟩
  · rw [e, ← hl, List.flatMap_map]

/-- What C155 says of the groups. -/
def ListedOnce (t : OMap Str Opt) : Prop := ∀ n ∈ t.keys, ((groups t).flatMap fun g => g.2.keys).count n = 1

/-- Options `-a`, `-b` for `-a`, `-c` for `-b`. -/
def chain : OMap Str Opt :=
  (((Obj.new.add (c!"-a") ⟨.flag, .nothing, c!"text"⟩).add (c!"-b") ⟨.flag, .nothing, c!"-a"⟩).add (c!"-c") ⟨.flag, .nothing, c!"-b"⟩).table

/-- C155 is violated for options that name one that names another: `-c` is listed twice, once with the text "-b". -/
theorem C155_refuted : ¬ ListedOnce chain ∧ generateHelp 80 chain = some (c!"\n  -a  \n  -b  \n  -c  text\n\n  -c  -b\n") := by
  refine ⟨fun h => ?_, by decide +kernel⟩
  have := h (c!"-c") (by decide +kernel)
  revert this
  decide +kernel

theorem C155_once_partial (t : OMap Str Opt) (ht : t.Sorted) (hone : OneStep t) : ListedOnce t := by
  intro n hn
  have hl := C155_groups_partial t ht hone
  have e : (groups t).flatMap (fun g => g.2.keys) = (listing t).flatMap (fun g => g.2) := by rw [← hl, List.flatMap_map]
  rw [e]
  have hnd : ((listing t).flatMap (fun g => g.2)).Nodup := by
    unfold listing
    rw [List.nodup_flatMap]
    refine ⟨?_, ?_⟩
    · intro g hg
      obtain ⟨e, -, rfl⟩ := List.mem_map.1 hg
      exact (List.Sublist.map Prod.fst List.filter_sublist).nodup (OMap.keys_nodup ht)
    · rw [List.pairwise_map]
      have hp : (t.filter fun e => Root t e.2).Pairwise (fun a b => a.1 ≠ b.1) := by
        have h1 : t.Pairwise (fun a b => a.1 ≠ b.1) := ht.imp (fun h => OMap.lt_ne h)
        exact h1.sublist List.filter_sublist
      refine (List.pairwise_iff_getElem.2 fun i j hi hj hij => ?_)
      have hne := List.pairwise_iff_getElem.1 hp i j hi hj hij
      have hri := (List.mem_filter.1 (List.getElem_mem hi))
      have hrj := (List.mem_filter.1 (List.getElem_mem hj))
      generalize (t.filter fun e => Root t e.2)[i] = x at hne hri
      generalize (t.filter fun e => Root t e.2)[j] = y at hne hrj
      simp only [decide_eq_true_eq] at hri hrj
      intro m hm1 hm2
      simp only [List.mem_map, List.mem_filter, decide_eq_true_eq] at hm1 hm2
      obtain ⟨⟨a, oa⟩, ⟨ha, hax⟩, rfl⟩ := hm1
      obtain ⟨⟨b, ob⟩, ⟨hb, hby⟩, hab⟩ := hm2
      simp only at hab hax hby
      subst hab
      have h1 := OMap.mem_find? ht ha
      have h2 := OMap.mem_find? ht hb
      rw [h1] at h2; cases h2
      have hx := OMap.mem_find? ht hri.1
      have hy := OMap.mem_find? ht hrj.1
      rcases hax with ex | ex
      · rcases hby with ey | ey
        · exact hne (ex.symm.trans ey)
        · apply hri.2
          rw [← ex, h1] at hx; cases hx
          rw [ey]; exact (OMap.mem_keys_iff _ _).2 (by rw [hy]; rfl)
      · rcases hby with ey | ey
        · apply hrj.2
          rw [← ey, h1] at hy; cases hy
          rw [ex]; exact (OMap.mem_keys_iff _ _).2 (by rw [hx]; rfl)
        · exact hne (ex.symm.trans ey)
  exact List.count_eq_one_of_mem hnd ((mem_listing ht hone n).2 hn)

/-! ### C156: the help of one option -/

/-- The loop of GetHelp; no result if it has not ended after the given number of turns. -/
-- models: vital/kwiversys/CommandLineArguments.cxx:478-489
def helpLoop (t : OMap Str Opt) : Nat → Str → Option Str
  | 0, _ => none
  | n + 1, help =>
    match t.find? help with
    | none => some help
    | some o => helpLoop t n o.help

-- models: vital/kwiversys/CommandLineArguments.cxx:467-491 (GetHelp; `some none` is the null pointer)
def getHelp (t : OMap Str Opt) (turns : Nat) (arg : Str) : Option (Option Str) :=
  match t.find? arg with
  | none => some none
  | some o => (helpLoop t turns o.help).map some

/-- One option names another, in one step or several. -/
inductive Leads (t : OMap Str Opt) : Str → Str → Prop where
  | one {a o} : t.find? a = some o → Leads t a o.help
  | more {a o b} : t.find? a = some o → Leads t o.help b → Leads t a b

theorem Leads.trans {t : OMap Str Opt} {a b c : Str} (h : Leads t a b) (h' : Leads t b c) : Leads t a c := by
  induction h with
  | one h => exact .more h h'
  | more h _ ih => exact .more h (ih h')

theorem helpLoop_sound (t : OMap Str Opt) : ∀ (n : Nat) (h r : Str), helpLoop t n h = some r → t.find? r = none ∧ (h = r ∨ Leads t h r) := by
  intro n
  induction n with
  | zero => intro h r e; cases e
  | succ n ih =>
    intro h r e
    rw [helpLoop] at e
    cases hf : t.find? h with
    | none => rw [hf] at e; cases e; exact ⟨hf, .inl rfl⟩
    | some o =>
      rw [hf] at e
      obtain ⟨h1, h2⟩ := ih o.help r e
      refine ⟨h1, .inr ?_⟩
      rcases h2 with rfl | h2
      · exact .one hf
      · exact .more hf h2

/-- C156: what GetHelp gives is a text the option leads to that is not the name of an option; nothing for an unknown name. -/
theorem C156_text (t : OMap Str Opt) (turns : Nat) (arg : Str) :
    (t.find? arg = none → getHelp t turns arg = some none) ∧ (∀ r, getHelp t turns arg = some r → t.find? arg ≠ none → ∃ text, r = some text ∧ Leads t arg text ∧ t.find? text = none) := by
  unfold getHelp
  cases hf : t.find? arg with
  | none => exact ⟨fun _ => rfl, fun r _ h => absurd rfl h⟩
  | some o =>
    refine ⟨fun h => (by cases h), fun r h _ => ?_⟩
    simp only [Option.map_eq_some_iff] at h
    obtain ⟨x, h1, rfl⟩ := h
    obtain ⟨h2, h3⟩ := helpLoop_sound t turns _ _ h1
    refine ⟨x, rfl, ?_, h2⟩
    rcases h3 with rfl | h3
    · exact .one hf
    · exact .more hf h3

/-- A loop that has not ended has gone through that many options, each naming the next. -/
theorem helpLoop_path (t : OMap Str Opt) : ∀ (n : Nat) (h : Str), helpLoop t n h = none → ∃ p : List Str, p.length = n ∧ (∀ a ∈ p, a ∈ t.keys) ∧
    (∀ a, p.head? = some a → a = h) ∧ p.Pairwise (fun a b => Leads t a b) := by
  intro n
  induction n with
  | zero => intro h _; exact ⟨[], rfl, by simp, by simp, List.Pairwise.nil⟩
  | succ n ih =>
    intro h e
    rw [helpLoop] at e
    cases hf : t.find? h with
    | none => rw [hf] at e; cases e
    | some o =>
      rw [hf] at e
      obtain ⟨p, h1, h2, h3, h4⟩ := ih o.help e
      refine ⟨h :: p, by simp [h1], ?_, by simp, ?_⟩
      · intro a ha
        rcases List.mem_cons.1 ha with rfl | ha
        · exact (OMap.mem_keys_iff _ _).2 (by rw [hf]; rfl)
        · exact h2 a ha
      · refine List.pairwise_cons.2 ⟨fun b hb => ?_, h4⟩
        cases p with
        | nil => cases hb
        | cons x p =>
          have hx := h3 x rfl
          subst hx
          rcases List.mem_cons.1 hb with rfl | hb
          · exact .one hf
          · exact .more hf ((List.pairwise_cons.1 h4).1 b hb)

/-- C156, if no option leads back to itself: GetHelp ends, after at most one turn more than there are options. -/
theorem C156_partial (t : OMap Str Opt) (hc : ∀ a, ¬ Leads t a a) (arg : Str) : ∃ r, getHelp t (t.length + 1) arg = some r := by
  unfold getHelp
  cases hf : t.find? arg with
  | none => exact ⟨_, rfl⟩
  | some o =>
    simp only
    cases hl : helpLoop t (t.length + 1) o.help with
    | some x => exact ⟨_, rfl⟩
    | none =>
      exfalso
      obtain ⟨p, h1, h2, -, h4⟩ := helpLoop_path t _ _ hl
      have hnd : p.Nodup := h4.imp (fun {a b} (h : Leads t a b) (e : a = b) => hc a (e ▸ h))
      have := (List.subperm_of_subset hnd h2).length_le
      rw [h1] at this
      simp only [OMap.keys, List.length_map] at this
      omega

def HelpEnds (t : OMap Str Opt) : Prop := ∀ arg, ∃ turns r, getHelp t turns arg = some r

/-- An option whose text is its own name. -/
def ownName : OMap Str Opt := (Obj.new.add (c!"-a") ⟨.flag, .nothing, c!"-a"⟩).table

/-- C156 is violated: GetHelp does not end for an option whose text is its own name. -/
theorem C156_refuted : ¬ HelpEnds ownName := by
  intro h
  obtain ⟨n, r, e⟩ := h (c!"-a")
  have hf : ownName.find? (c!"-a") = some ⟨.flag, .nothing, c!"-a"⟩ := by decide +kernel
  have : ∀ n, helpLoop ownName n (c!"-a") = none := by
    intro n
    induction n with
    | zero => rfl
    | succ n ih => rw [helpLoop, hf]; exact ih
  unfold getHelp at e
  rw [hf] at e
  simp only [this, Option.map_none] at e
  cases e

/-! ### Examples -/

/-- plugin_explorer's options with the texts it gives them (some of them). -/
def someHelp : OMap Str Opt :=
  (((Obj.new.add (c!"--help") ⟨.flag, .nothing, c!"Display usage information"⟩).add (c!"-h") ⟨.flag, .nothing, c!"--help"⟩).add (c!"--path") ⟨.space, .nothing, c!"Add directory to plugin search path"⟩).table

example : OneStep someHelp := by
  have e : someHelp = [(c!"--help", ⟨.flag, .nothing, c!"Display usage information"⟩), (c!"--path", ⟨.space, .nothing, c!"Add directory to plugin search path"⟩), (c!"-h", ⟨.flag, .nothing, c!"--help"⟩)] := by decide +kernel
  intro name o o' h h'
  have hm := OMap.find?_mem h
  rw [e] at hm
  simp only [List.mem_cons, Prod.mk.injEq, List.not_mem_nil, or_false] at hm
  rcases hm with ⟨-, rfl⟩ | ⟨-, rfl⟩ | ⟨-, rfl⟩
  · have : someHelp.find? (c!"Display usage information") = none := by decide +kernel
    rw [this] at h'; cases h'
  · have : someHelp.find? (c!"Add directory to plugin search path") = none := by decide +kernel
    rw [this] at h'; cases h'
  · have : someHelp.find? (c!"--help") = some ⟨.flag, .nothing, c!"Display usage information"⟩ := by decide +kernel
    rw [this] at h'; cases h'
    decide +kernel
theorem tidy_ab : TidyText (c!"a b") := by
  refine ⟨?_, ?_⟩
  · intro u v a b e
    rcases u with _ | ⟨x, _ | ⟨y, _ | ⟨z, u⟩⟩⟩ <;> simp at e
    · obtain ⟨rfl, rfl, -⟩ := e; decide
    · obtain ⟨-, rfl, rfl, -⟩ := e; decide
  · intro u a e
    rcases u with _ | ⟨x, _ | ⟨y, _ | ⟨z, u⟩⟩⟩ <;> simp at e
    obtain ⟨-, -, rfl⟩ := e; decide
/-- The hypotheses of C154 and C155 hold of `-x`, "a b". -/
example : ∃ text, generateHelp 80 [(c!"-x", ⟨.flag, .nothing, c!"a b"⟩)] = some text :=
  C154_memory_partial 80 _ (List.pairwise_singleton _ _) (by omega) (by
    intro name o h
    have := OMap.find?_mem h
    simp only [List.mem_cons, Prod.mk.injEq, List.not_mem_nil, or_false] at this
    obtain ⟨rfl, rfl⟩ := this
    exact ⟨by decide, by decide, tidy_ab⟩)
example : ¬ TidyText (c!"a ") := by
  intro h
  have := h.2 (c!"a") ' ' rfl
  revert this; decide
example : generateHelp 30 someHelp = some (c!"\n  --help      \n  -h          Display usage\n              information\n\n  --path opt  Add directory\n              to plugin\n              search path\n") := by decide +kernel
example : getHelp someHelp 4 (c!"-h") = some (some (c!"Display usage information")) := by decide +kernel

end Vital.CmdLine
