import Verif.Sys.Strings3
import Mathlib.Data.List.SplitOn
/-
  Model of SystemTools::ConvertToUnixOutputPath and ConvertToWindowsOutputPath (vital/kwiversys/SystemTools.cxx:2142-2225); properties C174 and C175.
-/
namespace Vital.OutPath
open Vital Vital.Strs

-- models: vital/kwiversys/SystemTools.cxx:2146-2151 and 2211-2217: `while( (pos = ret.find( "cc", pos )) != npos ) ret.erase( pos, 1 );` from the position
-- where the given text begins. The next search begins at the character that was left of the last pair found, so that of a run of `c` one is left.
def squeeze (c : Char) : Str → Str
  | a :: b :: r => if a = c ∧ b = c then squeeze c (b :: r) else a :: squeeze c (b :: r)
  | l => l

/-- The same from position `n` on. -/
def squeezeFrom (c : Char) (n : Nat) (s : Str) : Str := s.take n ++ squeeze c (s.drop n)

-- models: vital/kwiversys/SystemTools.cxx:2155-2168 (the loop over ret.c_str())
def escapeBlanks : Char → Str → Str
  | _, [] => []
  | last, c :: r => if c = ' ' ∧ last ≠ '\\' then '\\' :: c :: escapeBlanks c r else c :: escapeBlanks c r

-- models: vital/kwiversys/SystemTools.cxx:2142-2172 (ConvertToUnixOutputPath)
def toUnixOutput (path : Str) : Str :=
  let ret := squeezeFrom '/' 1 path
  if ' ' ∈ ret then escapeBlanks '\x01' (cstr ret) else ret

-- models: vital/kwiversys/SystemTools.cxx:2183-2227 (ConvertToWindowsOutputPath)
def toWindowsOutput (path : Str) : Str :=
  let ret := path.map fun c => if c = '/' then '\\' else c
  if ret.length < 2 then ret
  else if ret.head? = some '"' ∧ ret.length < 3 then ret
  else
    let ret := squeezeFrom '\\' (if ret.head? = some '"' then 2 else 1) ret
    if ' ' ∈ ret ∧ ret.head? ≠ some '"' then '"' :: ret ++ ['"'] else ret

/-! ### Runs of slashes -/

/-- Specification: between `s` and `t` only runs of `c` differ, and in `t` no two `c` stand together. -/
def Squeezed (c : Char) (s t : Str) : Prop :=
  ¬ [c, c] <:+: t ∧ (s.splitOn c).filter (· ≠ []) = (t.splitOn c).filter (· ≠ []) ∧ s.head? = t.head? ∧ s.getLast? = t.getLast?

theorem squeeze_head (c : Char) : ∀ s : Str, (squeeze c s).head? = s.head?
  | [] => rfl
  | [_] => rfl
  | a :: b :: r => by
    have ih := squeeze_head c (b :: r)
    unfold squeeze
    split
    · rename_i h; rw [ih, h.1, h.2]; rfl
    · rfl

theorem squeeze_ne {c : Char} {s : Str} (h : s ≠ []) : squeeze c s ≠ [] := by
  have := squeeze_head c s
  intro h2
  rw [h2] at this
  cases s with
  | nil => exact h rfl
  | cons a s => simp at this

theorem squeeze_last (c : Char) : ∀ s : Str, (squeeze c s).getLast? = s.getLast?
  | [] => rfl
  | [_] => rfl
  | a :: b :: r => by
    have ih := squeeze_last c (b :: r)
    unfold squeeze
    split
    · rw [ih]; simp [List.getLast?_cons]
    · rw [List.getLast?_cons, ih, List.getLast?_cons (a := a)]

theorem squeeze_nodouble (c : Char) : ∀ s : Str, ¬ [c, c] <:+: squeeze c s
  | [] => by simp [squeeze]
  | [a] => by
    intro h; have := h.length_le; simp [squeeze] at this
  | a :: b :: r => by
    have ih := squeeze_nodouble c (b :: r)
    unfold squeeze
    split
    · exact ih
    · rename_i hne
      intro h
      rcases List.infix_cons_iff.1 h with h1 | h1
      · have hh := squeeze_head c (b :: r)
        obtain ⟨t, ht⟩ := h1
        simp only [List.cons_append, List.nil_append, List.cons.injEq] at ht
        rw [← ht.2] at hh
        simp only [List.head?_cons, Option.some.injEq] at hh
        exact hne ⟨ht.1.symm, hh.symm⟩
      · exact ih h1

theorem splitOn_cons_sep (c : Char) (s : Str) : (c :: s).splitOn c = [] :: s.splitOn c := by simp [List.splitOn, List.splitOnP_cons]
theorem splitOn_cons_ne {a c : Char} (h : a ≠ c) (s : Str) : (a :: s).splitOn c = (s.splitOn c).modifyHead (a :: ·) := by simp [List.splitOn, List.splitOnP_cons, h]

theorem squeeze_split (c : Char) : ∀ s : Str,
    (s.splitOn c).filter (· ≠ []) = ((squeeze c s).splitOn c).filter (· ≠ []) ∧ (s.splitOn c).head? = ((squeeze c s).splitOn c).head?
  | [] => ⟨rfl, rfl⟩
  | [_] => ⟨rfl, rfl⟩
  | a :: b :: r => by
    obtain ⟨ih1, ih2⟩ := squeeze_split c (b :: r)
    unfold squeeze
    split
    · rename_i h
      obtain ⟨rfl, rfl⟩ := h
      refine ⟨?_, ?_⟩
      · rw [splitOn_cons_sep, ← ih1]; simp
      · rw [← ih2, splitOn_cons_sep, splitOn_cons_sep]; rfl
    · by_cases ha : a = c
      · subst ha
        rw [splitOn_cons_sep, splitOn_cons_sep]
        refine ⟨?_, rfl⟩
        simpa using ih1
      · rw [splitOn_cons_ne ha, splitOn_cons_ne ha]
        generalize List.splitOn c (b :: r) = x at *
        generalize List.splitOn c (squeeze c (b :: r)) = y at *
        cases x with
        | nil => cases y with
          | nil => exact ⟨rfl, rfl⟩
          | cons => cases ih2
        | cons p x => cases y with
          | nil => cases ih2
          | cons q y =>
            simp only [List.head?_cons, Option.some.injEq] at ih2
            subst ih2
            refine ⟨?_, rfl⟩
            by_cases hp : p = []
            · subst hp; simpa using ih1
            · simpa [hp] using ih1

theorem squeeze_spec (c : Char) (s : Str) : Squeezed c s (squeeze c s) :=
  ⟨squeeze_nodouble c s, (squeeze_split c s).1, (squeeze_head c s).symm, (squeeze_last c s).symm⟩

theorem squeeze_id (c : Char) : ∀ {s : Str}, ¬ [c, c] <:+: s → squeeze c s = s
  | [], _ => rfl
  | [_], _ => rfl
  | a :: b :: r, h => by
    have ih := squeeze_id c (s := b :: r) (fun hi => h (List.infix_cons_iff.2 (.inr hi)))
    unfold squeeze
    rw [if_neg, ih]
    rintro ⟨rfl, rfl⟩
    exact h ⟨[], r, rfl⟩

theorem squeeze_mem {c : Char} : ∀ (s : Str) (x : Char), x ∈ squeeze c s ↔ x ∈ s
  | [], _ => Iff.rfl
  | [_], _ => Iff.rfl
  | a :: b :: r, x => by
    have ih := squeeze_mem (c := c) (b :: r) x
    unfold squeeze
    split
    · rename_i h
      rw [ih, h.1, h.2]; simp
    · rw [List.mem_cons, ih, List.mem_cons (a := x) (b := a)]

/-! ### C174: ConvertToUnixOutputPath -/

/-- How the shell (or make) reads the first word: a backslash takes the next character as it is, an unescaped blank ends the word. -/
def firstWord : Str → Str × Str
  | [] => ([], [])
  | '\\' :: c :: r => (c :: (firstWord r).1, (firstWord r).2)
  | ' ' :: r => ([], ' ' :: r)
  | c :: r => (c :: (firstWord r).1, (firstWord r).2)

theorem firstWord_plain {c : Char} (h1 : c ≠ '\\') (h2 : c ≠ ' ') (r : Str) : firstWord (c :: r) = (c :: (firstWord r).1, (firstWord r).2) := by
  rw [firstWord.eq_def]
  split
  · rename_i h; cases h
  · rename_i h; cases h; exact absurd rfl h1
  · rename_i h; cases h; exact absurd rfl h2
  · rename_i h; cases h; rfl

theorem firstWord_escape : ∀ (s : Str) (last : Char), '\\' ∉ s → last ≠ '\\' → firstWord (escapeBlanks last s) = (s, [])
  | [], _, _, _ => rfl
  | c :: r, last, h, hl => by
    simp only [List.mem_cons, not_or] at h
    have ih := firstWord_escape r c h.2 (Ne.symm h.1)
    unfold escapeBlanks
    by_cases hc : c = ' '
    · subst hc
      rw [if_pos ⟨rfl, hl⟩]
      show (' ' :: (firstWord (escapeBlanks ' ' r)).1, (firstWord (escapeBlanks ' ' r)).2) = _
      rw [ih]
    · rw [if_neg (fun hh => hc hh.1), firstWord_plain (Ne.symm h.1) hc, ih]

/-- The path with the doubled slashes removed, except at the beginning. -/
theorem squeezeFrom_one (c a : Char) (s : Str) : squeezeFrom c 1 (a :: s) = a :: squeeze c s := rfl

/-- C174, proved part: for a path without backslash and NUL, the shell reads the output as one word, and it is the path with every run of slashes behind the
first character made a single slash. -/
theorem C174_word_partial (a : Char) (p : Str) (h0 : '\x00' ∉ a :: p) (hb : '\\' ∉ a :: p) :
    ∃ q, Squeezed '/' p q ∧ firstWord (toUnixOutput (a :: p)) = (a :: q, []) := by
  refine ⟨squeeze '/' p, squeeze_spec _ _, ?_⟩
  have hmem : ∀ x, x ∈ a :: squeeze '/' p ↔ x ∈ a :: p := by
    intro x; rw [List.mem_cons, squeeze_mem, List.mem_cons]
  have h0' : '\x00' ∉ a :: squeeze '/' p := fun h => h0 ((hmem _).1 h)
  have hb' : '\\' ∉ a :: squeeze '/' p := fun h => hb ((hmem _).1 h)
  unfold toUnixOutput
  rw [squeezeFrom_one]
  by_cases hs : ' ' ∈ a :: squeeze '/' p
  · simp only [hs, if_true]
    rw [cstr_eq h0']
    exact firstWord_escape _ _ hb' (by decide)
  · simp only [hs, if_false]
    generalize a :: squeeze '/' p = t at *
    clear hmem h0 hb h0'
    induction t with
    | nil => rfl
    | cons c t ih =>
      simp only [List.mem_cons, not_or] at hb' hs
      rw [firstWord_plain (Ne.symm hb'.1) (Ne.symm hs.1), ih hb'.2 hs.2]

/-- C174 refuted: a blank behind a backslash of the path is taken for an escaped one; behind two of them it ends the word; a path with a NUL and a blank is
cut at the NUL. -/
theorem C174_refuted :
    (firstWord (toUnixOutput (c!"a\\ b"))).1 = c!"a b" ∧ firstWord (toUnixOutput (c!"a\\\\ b")) = (c!"a\\", c!" b") ∧
      toUnixOutput ['a', ' ', '\x00', 'b'] = c!"a\\ " := by decide

theorem escapeBlanks_cons (last c : Char) (r : Str) :
    escapeBlanks last (c :: r) = if c = ' ' ∧ last ≠ '\\' then '\\' :: c :: escapeBlanks c r else c :: escapeBlanks c r := rfl

theorem escapeBlanks_again : ∀ (s : Str) (last : Char), escapeBlanks last (escapeBlanks last s) = escapeBlanks last s
  | [], _ => rfl
  | c :: r, last => by
    have ih := escapeBlanks_again r c
    by_cases h : c = ' ' ∧ last ≠ '\\'
    · have e0 : escapeBlanks last (c :: r) = '\\' :: c :: escapeBlanks c r := by rw [escapeBlanks_cons, if_pos h]
      have e2 : ¬ (c = ' ' ∧ ('\\' : Char) ≠ '\\') := fun x => x.2 rfl
      have e3 : ¬ (('\\' : Char) = ' ' ∧ last ≠ '\\') := fun x => absurd x.1 (by decide)
      rw [e0, escapeBlanks_cons, if_neg e3, escapeBlanks_cons, if_neg e2, ih]
    · have e0 : escapeBlanks last (c :: r) = c :: escapeBlanks c r := by rw [escapeBlanks_cons, if_neg h]
      rw [e0, escapeBlanks_cons, if_neg h, ih]

theorem escapeBlanks_nodouble : ∀ (s : Str) (last : Char), ¬ ['/', '/'] <:+: s → ¬ ['/', '/'] <:+: escapeBlanks last s
  | [], _, h => h
  | c :: r, last, h => by
    have hr : ¬ ['/', '/'] <:+: r := fun hi => h (List.infix_cons_iff.2 (.inr hi))
    have ih := escapeBlanks_nodouble r c hr
    have hcc : ¬ ['/', '/'] <:+: c :: escapeBlanks c r := by
      intro hi
      rcases List.infix_cons_iff.1 hi with h1 | h1
      · obtain ⟨t, ht⟩ := h1
        simp only [List.cons_append, List.nil_append, List.cons.injEq] at ht
        obtain ⟨rfl, ht⟩ := ht
        cases r with
        | nil => cases ht
        | cons d r =>
          unfold escapeBlanks at ht
          split at ht
          · simp at ht
          · simp only [List.cons.injEq] at ht
            exact h ⟨[], r, by simp [← ht.1]⟩
      · exact ih h1
    unfold escapeBlanks
    split
    · intro hi
      rcases List.infix_cons_iff.1 hi with h1 | h1
      · obtain ⟨t, ht⟩ := h1
        simp at ht
      · exact hcc h1
    · exact hcc

theorem escapeBlanks_mem {x : Char} (hx : x ≠ '\\') : ∀ (s : Str) (last : Char), x ∈ escapeBlanks last s ↔ x ∈ s
  | [], _ => Iff.rfl
  | c :: r, last => by
    have ih := escapeBlanks_mem hx r c
    unfold escapeBlanks
    split
    · simp [ih, hx]
    · simp [ih]

/-- C174. Converting again changes nothing. -/
theorem C174_again (p : Str) (h0 : '\x00' ∉ p) : toUnixOutput (toUnixOutput p) = toUnixOutput p := by
  cases p with
  | nil => rfl
  | cons a p =>
    have h0' : '\x00' ∉ a :: squeeze '/' p := by
      intro h; apply h0
      rw [List.mem_cons, squeeze_mem] at h
      exact List.mem_cons.2 h
    have hnd := squeeze_nodouble '/' p
    by_cases hs : ' ' ∈ a :: squeeze '/' p
    · have e : toUnixOutput (a :: p) = escapeBlanks '\x01' (a :: squeeze '/' p) := by
        unfold toUnixOutput
        rw [squeezeFrom_one]
        simp only [hs, if_true]
        rw [cstr_eq h0']
      rw [e]
      have htail : ∀ x t, escapeBlanks '\x01' (a :: squeeze '/' p) = x :: t → ¬ ['/', '/'] <:+: t := by
        intro x t ht
        unfold escapeBlanks at ht
        have hq := escapeBlanks_nodouble _ a hnd
        split at ht
        · rename_i ha
          simp only [List.cons.injEq] at ht
          rw [← ht.2]
          intro hi
          rcases List.infix_cons_iff.1 hi with h1 | h1
          · obtain ⟨u, hu⟩ := h1
            simp only [List.cons_append, List.nil_append, List.cons.injEq] at hu
            rw [← hu.1] at ha
            exact absurd ha.1 (by decide)
          · exact hq h1
        · simp only [List.cons.injEq] at ht
          rw [← ht.2]; exact hq
      have hs2 : ' ' ∈ escapeBlanks '\x01' (a :: squeeze '/' p) := (escapeBlanks_mem (by decide) _ _).2 hs
      have hz2 : '\x00' ∉ escapeBlanks '\x01' (a :: squeeze '/' p) := fun h => h0' ((escapeBlanks_mem (by decide) _ _).1 h)
      have hsq : squeezeFrom '/' 1 (escapeBlanks '\x01' (a :: squeeze '/' p)) = escapeBlanks '\x01' (a :: squeeze '/' p) := by
        cases hE : escapeBlanks '\x01' (a :: squeeze '/' p) with
        | nil => rfl
        | cons x t => rw [squeezeFrom_one, squeeze_id _ (htail x t hE)]
      unfold toUnixOutput
      rw [hsq]
      simp only [hs2, if_true]
      rw [cstr_eq hz2, escapeBlanks_again]
    · have e : toUnixOutput (a :: p) = a :: squeeze '/' p := by
        unfold toUnixOutput
        rw [squeezeFrom_one]
        simp only [hs, if_false]
      rw [e]
      unfold toUnixOutput
      rw [squeezeFrom_one, squeeze_id _ hnd]
      simp only [hs, if_false]

example : toUnixOutput (c!"//srv//my dir///x") = c!"//srv/my\\ dir/x" := by decide

/-! ### C175: ConvertToWindowsOutputPath -/

/-- The path with backslashes. -/
def backslashed (p : Str) : Str := p.map fun c => if c = '/' then '\\' else c

/-- C175. The output is the path with backslashes, where runs of them behind the first character are made single ones, in double quotes if there is a blank
in it (a path that begins with a double quote already is left without, and one of fewer than two characters - three, if quoted - is not touched otherwise). -/
theorem C175_windows (p : Str) :
    (p.length < 2 → toWindowsOutput p = backslashed p) ∧
    (∀ a q, backslashed p = a :: q → a ≠ '"' → q ≠ [] → ∃ t, Squeezed '\\' q t ∧
      toWindowsOutput p = if ' ' ∈ a :: q then '"' :: a :: t ++ ['"'] else a :: t) ∧
    (∀ b q, backslashed p = '"' :: b :: q → ∃ t, Squeezed '\\' q t ∧ toWindowsOutput p = '"' :: b :: t) ∧
    '/' ∉ toWindowsOutput p := by
  have hsl : ∀ p : Str, '/' ∉ backslashed p := by
    intro p hm
    unfold backslashed at hm
    rw [List.mem_map] at hm
    obtain ⟨c, _, hc⟩ := hm
    split at hc
    · exact absurd hc (by decide)
    · rename_i h; exact h hc
  have p1 : p.length < 2 → toWindowsOutput p = backslashed p := by
    intro h
    unfold toWindowsOutput
    rw [if_pos (by simpa using h)]
    rfl
  have p2 : ∀ a q, backslashed p = a :: q → a ≠ '"' → q ≠ [] →
      toWindowsOutput p = if ' ' ∈ a :: q then '"' :: a :: squeeze '\\' q ++ ['"'] else a :: squeeze '\\' q := by
    intro a q h ha hq
    unfold toWindowsOutput
    rw [show (p.map fun c => if c = '/' then '\\' else c) = a :: q from h]
    have hl : 0 < q.length := List.length_pos_iff.2 hq
    have hmem : ' ' ∈ a :: squeeze '\\' q ↔ ' ' ∈ a :: q := by rw [List.mem_cons, squeeze_mem, List.mem_cons]
    simp only
    rw [if_neg (by simp; omega), if_neg (by simp [ha])]
    have e : squeezeFrom '\\' (if (a :: q).head? = some '"' then 2 else 1) (a :: q) = a :: squeeze '\\' q := by
      rw [if_neg (by simp [ha]), squeezeFrom_one]
    rw [e]
    by_cases hb : ' ' ∈ a :: q
    · rw [if_pos ⟨hmem.2 hb, by simp [ha]⟩, if_pos hb]
    · rw [if_neg (fun h => hb (hmem.1 h.1)), if_neg hb]
  have p3 : ∀ b q, backslashed p = '"' :: b :: q → toWindowsOutput p = '"' :: b :: squeeze '\\' q := by
    intro b q h
    unfold toWindowsOutput
    rw [show (p.map fun c => if c = '/' then '\\' else c) = '"' :: b :: q from h]
    simp only
    rw [if_neg (by simp)]
    cases q with
    | nil => rw [if_pos (by simp)]; rfl
    | cons d q =>
      rw [if_neg (by simp), if_neg (by simp [squeezeFrom])]
      rfl
  refine ⟨p1, fun a q h ha hq => ⟨_, squeeze_spec _ _, p2 a q h ha hq⟩, fun b q h => ⟨_, squeeze_spec _ _, p3 b q h⟩, ?_⟩
  match h : backslashed p with
  | [] =>
    have : p.length < 2 := by have := congrArg List.length h; simp [backslashed] at this; simp [this]
    rw [p1 this]; exact hsl p
  | [a] =>
    have : p.length < 2 := by have := congrArg List.length h; simp [backslashed] at this; omega
    rw [p1 this]; exact hsl p
  | a :: b :: q =>
    have hn := hsl p
    rw [h] at hn
    simp only [List.mem_cons, not_or] at hn
    by_cases ha : a = '"'
    · subst ha
      rw [p3 b q h]
      simp [squeeze_mem, hn.2.1, hn.2.2]
    · rw [p2 a (b :: q) h ha (by simp)]
      have : '/' ∉ squeeze '\\' (b :: q) := by rw [squeeze_mem]; simp [hn.2.1, hn.2.2]
      split
      · simp [hn.1, this]
      · simp [hn.1, this]

theorem backslashed_id {s : Str} (h : '/' ∉ s) : backslashed s = s := by
  unfold backslashed
  conv_rhs => rw [← List.map_id s]
  apply List.map_congr_left
  intro c hc
  have : c ≠ '/' := by rintro rfl; exact h hc
  simp [this]

/-- What the specification of a squeezed text says is unique, and nothing is to be done to a text without doubled characters. -/
theorem squeezed_self {c : Char} {s t : Str} (h : ¬ [c, c] <:+: s) (ht : t = squeeze c s) : t = s := by rw [ht, squeeze_id c h]

/-- C175. Converting again changes nothing. -/
theorem C175_again (p : Str) : toWindowsOutput (toWindowsOutput p) = toWindowsOutput p := by
  have hno := (C175_windows p).2.2.2
  have hbs := backslashed_id hno
  have key : ∀ s : Str, backslashed s = s → (s.length < 2 ∨ (∃ a q, s = a :: q ∧ a ≠ '"' ∧ ¬ ['\\', '\\'] <:+: q ∧ ' ' ∉ s) ∨
      (∃ b q, s = '"' :: b :: q ∧ ¬ ['\\', '\\'] <:+: q)) → toWindowsOutput s = s := by
    rintro s hs (h | ⟨a, q, rfl, ha, hq, hb⟩ | ⟨b, q, rfl, hq⟩)
    · rw [(C175_windows s).1 h, hs]
    · cases q with
      | nil => rw [(C175_windows [a]).1 (by simp), hs]
      | cons d q =>
        unfold toWindowsOutput
        rw [show ((a :: d :: q).map fun c => if c = '/' then '\\' else c) = a :: d :: q from hs]
        simp only
        rw [if_neg (by simp), if_neg (by simp [ha])]
        have e : squeezeFrom '\\' (if (a :: d :: q).head? = some '"' then 2 else 1) (a :: d :: q) = a :: d :: q := by
          rw [if_neg (by simp [ha]), squeezeFrom_one, squeeze_id _ hq]
        rw [e, if_neg (fun h => hb h.1)]
    · unfold toWindowsOutput
      rw [show (('"' :: b :: q).map fun c => if c = '/' then '\\' else c) = '"' :: b :: q from hs]
      simp only
      rw [if_neg (by simp)]
      split
      · rfl
      · have e : squeezeFrom '\\' (if ('"' :: b :: q).head? = some '"' then 2 else 1) ('"' :: b :: q) = '"' :: b :: q := by
          rw [if_pos (by simp)]
          show '"' :: b :: squeeze '\\' q = _
          rw [squeeze_id _ hq]
        rw [e, if_neg (by simp)]
  apply key _ hbs
  match h : backslashed p with
  | [] =>
    have hl : p.length < 2 := by have := congrArg List.length h; simp [backslashed] at this; simp [this]
    rw [(C175_windows p).1 hl, h]; exact .inl (by simp)
  | [a] =>
    have hl : p.length < 2 := by have := congrArg List.length h; simp [backslashed] at this; omega
    rw [(C175_windows p).1 hl, h]; exact .inl (by simp)
  | a :: b :: q =>
    by_cases ha : a = '"'
    · subst ha
      obtain ⟨t, ht, e⟩ := (C175_windows p).2.2.1 b q h
      rw [e]
      exact .inr (.inr ⟨b, t, rfl, ht.1⟩)
    · obtain ⟨t, ht, e⟩ := (C175_windows p).2.1 a (b :: q) h ha (by simp)
      rw [e]
      by_cases hb : ' ' ∈ a :: b :: q
      · rw [if_pos hb]
        refine .inr (.inr ⟨a, t ++ ['"'], rfl, ?_⟩)
        rintro ⟨x, y, hxy⟩
        -- the last character is a quote, so the pair lies within t
        have hy : y ≠ [] := by
          rintro rfl
          have := congrArg List.getLast? hxy
          simp at this
        obtain ⟨y', z, rfl⟩ : ∃ y' z, y = y' ++ [z] := ⟨y.dropLast, y.getLast hy, (List.dropLast_append_getLast hy).symm⟩
        rw [← List.append_assoc] at hxy
        have := (List.append_inj' hxy rfl).1
        exact ht.1 ⟨x, y', this⟩
      · rw [if_neg hb]
        refine .inr (.inl ⟨a, t, rfl, ha, ht.1, ?_⟩)
        -- the blanks of the output are those of the path
        intro hm
        have e2 : toWindowsOutput p = a :: t := by rw [e, if_neg hb]
        have : ' ' ∈ toWindowsOutput p := by rw [e2]; exact hm
        apply hb
        -- by the definition
        unfold toWindowsOutput at this
        rw [show (p.map fun c => if c = '/' then '\\' else c) = a :: b :: q from h] at this
        simp only at this
        rw [if_neg (by simp), if_neg (by simp [ha])] at this
        have e3 : squeezeFrom '\\' (if (a :: b :: q).head? = some '"' then 2 else 1) (a :: b :: q) = a :: squeeze '\\' (b :: q) := by
          rw [if_neg (by simp [ha]), squeezeFrom_one]
        rw [e3] at this
        have hmem : ' ' ∈ a :: squeeze '\\' (b :: q) ↔ ' ' ∈ a :: b :: q := by rw [List.mem_cons, squeeze_mem, List.mem_cons (a := ' ') (b := a)]
        split at this
        · rename_i hc; exact hmem.1 hc.1
        · exact hmem.1 this

example : toWindowsOutput (c!"//srv/my dir//x") = c!"\"\\\\srv\\my dir\\x\"" ∧ toWindowsOutput (c!"c://x") = c!"c:\\x" := by decide

end Vital.OutPath
