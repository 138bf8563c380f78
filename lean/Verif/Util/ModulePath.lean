import Verif.Util.GetPaths
/-
  wai_getModulePath (vital/util/whereami.c, Linux branch): which file of /proc/self/maps is reported; property C242.
-/
namespace Vital.GetPaths.Maps
open Vital Vital.Sys Vital.GetPaths

/-! ### sscanf -/

-- models: vital/util/whereami.c:249-250 (the digits %x accepts)
def hexDigit (c : Char) : Option Nat :=
  if 48 ≤ c.toNat ∧ c.toNat ≤ 57 then some (c.toNat - 48)
  else if 97 ≤ c.toNat ∧ c.toNat ≤ 102 then some (c.toNat - 87)
  else if 65 ≤ c.toNat ∧ c.toNat ≤ 70 then some (c.toNat - 55)
  else none

-- models: vital/util/whereami.c:249-250 (the digits %u accepts)
def decDigit (c : Char) : Option Nat := if 48 ≤ c.toNat ∧ c.toNat ≤ 57 then some (c.toNat - 48) else none

/-- Digits as long as there are any. -/
def scanDigits (base : Nat) (digit : Char → Option Nat) : Str → Nat → Nat × Str
  | [], n => (n, [])
  | c :: s, n => match digit c with
    | some d => scanDigits base digit s (base * n + d)
    | none => (n, c :: s)

-- models: vital/util/whereami.c:249-250 (%x, %u): blanks are skipped.  Simplified: no sign and no prefix 0x, which the kernel never writes, and
-- no overflow (the numbers of the kernel fit their types)
def scanNumber (base : Nat) (digit : Char → Option Nat) (s : Str) : Option (Nat × Str) :=
  match ltrim s with
  | [] => none
  | c :: t => if (digit c).isSome = true then some (scanDigits base digit (c :: t) 0) else none

-- models: vital/util/whereami.c:249-250 (a character of the format)
def scanChar (c : Char) : Str → Option Str
  | [] => none
  | d :: s => if d = c then some s else none

-- models: vital/util/whereami.c:249-250 (%s)
def scanWord (s : Str) : Option (Str × Str) :=
  let t := ltrim s
  if t.takeWhile (fun c => !isSpace c) = [] then none
  else some (t.takeWhile (fun c => !isSpace c), t.dropWhile (fun c => !isSpace c))

-- models: vital/util/whereami.c:249-250 (the conversions after perms): the path if all succeed
def scanTail (s : Str) : Option Str :=
  match scanNumber 16 hexDigit s with
  | none => none
  | some (_, s) => match scanNumber 16 hexDigit s with
    | none => none
    | some (_, s) => match scanChar ':' s with
      | none => none
      | some s => match scanNumber 16 hexDigit s with
        | none => none
        | some (_, s) => match scanNumber 10 decDigit s with
          | none => none
          | some (_, s) => (scanWord s).map (·.1)

-- models: vital/util/whereami.c:249-250 (sscanf): low, high, perms and, if the result is 8, the path; `none` if perms is not reached
def scanLine (s : Str) : Option (Nat × Nat × Str × Option Str) :=
  match scanNumber 16 hexDigit s with
  | none => none
  | some (low, s) => match scanChar '-' s with
    | none => none
    | some s => match scanNumber 16 hexDigit s with
      | none => none
      | some (high, s) => match scanWord s with
        | none => none
        | some (perms, s) => some (low, high, perms, scanTail s)

/-! ### Reading the file -/

-- models: vital/util/whereami.c:244 (fgets): at most `n` characters, up to and with the newline
def fgetsN : Nat → Str → Str × Str
  | 0, t => ([], t)
  | _ + 1, [] => ([], [])
  | n + 1, c :: t => if c = '\n' then ([c], t) else (c :: (fgetsN n t).1, (fgetsN n t).2)

-- models: vital/util/whereami.c:233-330 (the loop over the lines; `rounds` bounds them): the resolved path, `some none` if there is none (length
-- -1), and `none` for undefined behaviour (`char perms[5]` overflows)
def scanFile (realpath : Str → Option Str) (addr : Nat) : Nat → Str → Option (Option Str)
  | 0, _ => some none
  | rounds + 1, text =>
    if text = [] then some none
    else
      let line := (fgetsN 4095 text).1
      let rest := (fgetsN 4095 text).2
      match scanLine line with
      | none => scanFile realpath addr rounds rest
      | some (low, high, perms, path) =>
        if perms.length > 4 then none
        else match path with
          | none => scanFile realpath addr rounds rest
          | some p => if low ≤ addr ∧ addr ≤ high then some (realpath p) else scanFile realpath addr rounds rest

-- models: vital/util/whereami.c:222-338 (wai_getModulePath): `file i` is the content of /proc/self/maps at the (i+1)-th of the remaining attempts
def modulePath (realpath : Str → Option Str) (addr : Nat) : Nat → (Nat → Option Str) → Option (Option Str)
  | 0, _ => some none
  | tries + 1, file => match file 0 with
    | none => some none
    | some text => match scanFile realpath addr (text.length + 1) text with
      | none => none
      | some (some r) => some (some r)
      | some none => modulePath realpath addr tries (fun i => file (i + 1))

-- models: vital/util/whereami.c:209-211 (WAI_PROC_SELF_MAPS_RETRY)
def getModule (realpath : Str → Option Str) (addr : Nat) (file : Nat → Option Str) : Option (Option Str) := modulePath realpath addr 5 file

/-! ### Specification -/

/-- One mapping of the process. -/
structure Mapping where
  low : Nat
  high : Nat
  perms : Str
  offset : Nat
  major : Nat
  minor : Nat
  inode : Nat
  path : Option Str

/-- A number written with the given digits, the first one being zero. -/
inductive Numeral (digits : Str) : Str → Nat → Prop where
  | one {c : Char} {d : Nat} : digits[d]? = some c → Numeral digits [c] d
  | more {s : Str} {n : Nat} {c : Char} {d : Nat} : Numeral digits s n → digits[d]? = some c → Numeral digits (s ++ [c]) (digits.length * n + d)

def hexes : Str := c!"0123456789abcdef"
def decs : Str := c!"0123456789"

/-- The line of /proc/self/maps for a mapping (proc(5)). -/
def Line (m : Mapping) (s : Str) : Prop := ∃ lo hi off maj mi ino pad, Numeral hexes lo m.low ∧ Numeral hexes hi m.high ∧ Numeral hexes off m.offset ∧
  Numeral hexes maj m.major ∧ Numeral hexes mi m.minor ∧ Numeral decs ino m.inode ∧ (∀ c ∈ pad, c = ' ') ∧
  s = lo ++ (c!"-") ++ hi ++ (c!" ") ++ m.perms ++ (c!" ") ++ off ++ (c!" ") ++ maj ++ (c!":") ++ mi ++ (c!" ") ++ ino ++ (c!" ") ++ pad ++
    m.path.getD [] ++ (c!"\n")

/-- What the kernel guarantees of a mapping: newlines in names are written as \012. -/
structure Sane (m : Mapping) : Prop where
  range : m.low < m.high
  perms : m.perms.length = 4 ∧ ∀ c ∈ m.perms, isSpace c = false
  path : ∀ p, m.path = some p → p ≠ [] ∧ '\n' ∉ p

/-- The text of /proc/self/maps; the lines fit the buffer. -/
inductive MapsFile : List Mapping → Str → Prop where
  | nil : MapsFile [] []
  | cons {m : Mapping} {ms : List Mapping} {l s : Str} : Sane m → Line m l → l.length < 4096 → MapsFile ms s → MapsFile (m :: ms) (l ++ s)

/-- Mappings do not overlap and are listed by address. -/
def Ordered (ms : List Mapping) : Prop := ms.Pairwise (fun a b => a.high ≤ b.low)

/-- Full property C242: the file that is mapped where the caller's code is, is reported. -/
def C242_statement : Prop := ∀ (realpath : Str → Option Str) (ms : List Mapping) (text : Str) (m : Mapping) (p r : Str) (addr : Nat),
  MapsFile ms text → Ordered ms → m ∈ ms → m.low ≤ addr → addr < m.high → m.path = some p → realpath p = some r →
  getModule realpath addr (fun _ => some text) = some (some r)

/-! ### Scanning -/

theorem dropWhile_append_all {α : Type} (P : α → Bool) (a b : List α) (h : ∀ x ∈ a, P x = true) : (a ++ b).dropWhile P = b.dropWhile P := by
  induction a with
  | nil => rfl
  | cons x a ih =>
    rw [List.cons_append, List.dropWhile_cons, if_pos (h x (by simp))]
    exact ih (fun y hy => h y (by simp [hy]))

theorem takeWhile_append_stop {α : Type} (P : α → Bool) (a b : List α) (h : ∀ x ∈ a, P x = true) (hb : ∀ x, b.head? = some x → P x = false) :
    (a ++ b).takeWhile P = a ∧ (a ++ b).dropWhile P = b := by
  induction a with
  | nil =>
    cases b with
    | nil => exact ⟨rfl, rfl⟩
    | cons x b =>
      have := hb x rfl
      simp [this]
  | cons x a ih =>
    have ih := ih (fun y hy => h y (by simp [hy]))
    have hx := h x (by simp)
    simp [hx, ih.1, ih.2]

/-- The digits and the scanner agree. -/
structure Agree (base : Nat) (digit : Char → Option Nat) (digits : Str) : Prop where
  len : digits.length = base
  val : ∀ d c, digits[d]? = some c → digit c = some d
  space : ∀ c, c ∈ digits → isSpace c = false

theorem hex_agree : Agree 16 hexDigit hexes where
  len := rfl
  val := by
    intro d c h
    have hd : d < 16 := by
      have := (List.getElem?_eq_some_iff.1 h).1
      exact this
    have : ∀ d, d < 16 → (hexes[d]?).bind hexDigit = some d := by decide +kernel
    have := this d hd
    rw [h] at this
    exact this
  space := by decide +kernel

theorem dec_agree : Agree 10 decDigit decs where
  len := rfl
  val := by
    intro d c h
    have hd : d < 10 := by
      have := (List.getElem?_eq_some_iff.1 h).1
      exact this
    have : ∀ d, d < 10 → (decs[d]?).bind decDigit = some d := by decide +kernel
    have := this d hd
    rw [h] at this
    exact this
  space := by decide +kernel

theorem numeral_chars {digits s : Str} {n : Nat} (h : Numeral digits s n) : s ≠ [] ∧ ∀ c ∈ s, c ∈ digits := by
  induction h with
  | one h => exact ⟨by simp, by intro c hc; rw [List.mem_singleton.1 hc]; exact List.mem_of_getElem? h⟩
  | more _ h ih =>
    refine ⟨by simp, ?_⟩
    intro c hc
    rcases List.mem_append.1 hc with h1 | h1
    · exact ih.2 c h1
    · rw [List.mem_singleton.1 h1]; exact List.mem_of_getElem? h

theorem scanDigits_run {base : Nat} {digit : Char → Option Nat} {digits : Str} (ag : Agree base digit digits) {s : Str} {n : Nat}
    (h : Numeral digits s n) : ∀ rest, scanDigits base digit (s ++ rest) 0 = scanDigits base digit rest n := by
  induction h with
  | one h =>
    intro rest
    rw [List.singleton_append, scanDigits, ag.val _ _ h]
    simp
  | @more s n c d h hd ih =>
    intro rest
    rw [List.append_assoc, ih, List.singleton_append, scanDigits, ag.val _ _ hd, ag.len]

theorem scanNumber_spec {base : Nat} {digit : Char → Option Nat} {digits : Str} (ag : Agree base digit digits) {s : Str} {n : Nat}
    (h : Numeral digits s n) (ws rest : Str) (hws : ∀ c ∈ ws, isSpace c = true) (hr : ∀ c, rest.head? = some c → digit c = none) :
    scanNumber base digit (ws ++ (s ++ rest)) = some (n, rest) := by
  obtain ⟨hne, hch⟩ := numeral_chars h
  have hl : ltrim (ws ++ (s ++ rest)) = s ++ rest := by
    unfold ltrim
    rw [dropWhile_append_all _ _ _ hws]
    cases s with
    | nil => exact absurd rfl hne
    | cons c s =>
      have : isSpace c = false := ag.space c (hch c (by simp))
      simp [this]
  unfold scanNumber
  rw [hl]
  have hrun := scanDigits_run ag h rest
  have hend : scanDigits base digit rest n = (n, rest) := by
    cases rest with
    | nil => rfl
    | cons c r => rw [scanDigits, hr c rfl]
  cases s with
  | nil => exact absurd rfl hne
  | cons c s =>
    have hc : (digit c).isSome = true := by
      obtain ⟨d, hd⟩ := List.getElem?_of_mem (hch c (by simp))
      rw [ag.val _ _ hd]; rfl
    rw [List.cons_append] at hrun ⊢
    simp only [hc, if_true]
    rw [hrun, hend]

theorem scanWord_spec (ws w rest : Str) (hws : ∀ c ∈ ws, isSpace c = true) (hne : w ≠ []) (hw : ∀ c ∈ w, isSpace c = false)
    (hr : ∀ c, rest.head? = some c → isSpace c = true) : scanWord (ws ++ (w ++ rest)) = some (w, rest) := by
  have hl : ltrim (ws ++ (w ++ rest)) = w ++ rest := by
    unfold ltrim
    rw [dropWhile_append_all _ _ _ hws]
    cases w with
    | nil => exact absurd rfl hne
    | cons c w => simp [hw c (by simp)]
  have h := takeWhile_append_stop (fun c => !isSpace c) w rest (fun c hc => by simp [hw c hc]) (fun c hc => by simp [hr c hc])
  unfold scanWord
  simp only [hl, h.1, h.2]
  rw [if_neg hne]

/-! ### A line -/

theorem scanLine_head {m : Mapping} {l : Str} (hs : Sane m) (hl : Line m l) : ∃ path, scanLine l = some (m.low, m.high, m.perms, path) ∧
    (m.path = none → path = none) ∧ (∀ p, m.path = some p → (∀ c ∈ p, isSpace c = false) → path = some p) := by
  obtain ⟨lo, hi, off, maj, mi, ino, pad, h1, h2, h3, h4, h5, h6, hpad, rfl⟩ := hl
  have s0 : isSpace ' ' = true := by decide +kernel
  have hperm : m.perms ≠ [] := by intro e; have := hs.perms.1; rw [e] at this; simp at this
  -- the tail
  have ht : scanTail ((c!" ") ++ off ++ (c!" ") ++ maj ++ (c!":") ++ mi ++ (c!" ") ++ ino ++ (c!" ") ++ pad ++ m.path.getD [] ++ (c!"\n")) =
      (scanWord ((c!" ") ++ pad ++ m.path.getD [] ++ (c!"\n"))).map (·.1) := by
    unfold scanTail
    have e1 : (c!" ") ++ off ++ (c!" ") ++ maj ++ (c!":") ++ mi ++ (c!" ") ++ ino ++ (c!" ") ++ pad ++ m.path.getD [] ++ (c!"\n") =
        (c!" ") ++ (off ++ ((c!" ") ++ (maj ++ ((c!":") ++ (mi ++ ((c!" ") ++ (ino ++ ((c!" ") ++ pad ++ m.path.getD [] ++ (c!"\n"))))))))) := by
      simp only [List.append_assoc]
    rw [e1, scanNumber_spec hex_agree h3 (c!" ") _ (by intro c hc; rw [List.mem_singleton.1 hc]; exact s0)
      (by intro c hc; cases hc; decide +kernel)]
    simp only
    rw [scanNumber_spec hex_agree h4 (c!" ") _ (by intro c hc; rw [List.mem_singleton.1 hc]; exact s0)
      (by intro c hc; cases hc; decide +kernel)]
    simp only
    have e2 : ∀ t : Str, scanChar ':' ((c!":") ++ t) = some t := by
      intro t
      show scanChar ':' (':' :: t) = some t
      simp [scanChar]
    rw [e2]
    simp only
    have e3 : ∀ t : Str, mi ++ t = [] ++ (mi ++ t) := fun _ => rfl
    rw [e3, scanNumber_spec hex_agree h5 [] _ (by simp) (by intro c hc; cases hc; decide +kernel)]
    simp only
    rw [scanNumber_spec dec_agree h6 (c!" ") _ (by intro c hc; rw [List.mem_singleton.1 hc]; exact s0)
      (by intro c hc; cases hc; decide +kernel)]
  refine ⟨scanTail ((c!" ") ++ off ++ (c!" ") ++ maj ++ (c!":") ++ mi ++ (c!" ") ++ ino ++ (c!" ") ++ pad ++ m.path.getD [] ++ (c!"\n")), ?_, ?_, ?_⟩
  · generalize htl : (c!" ") ++ off ++ (c!" ") ++ maj ++ (c!":") ++ mi ++ (c!" ") ++ ino ++ (c!" ") ++ pad ++ m.path.getD [] ++ (c!"\n") = tl
    have e1 : lo ++ (c!"-") ++ hi ++ (c!" ") ++ m.perms ++ (c!" ") ++ off ++ (c!" ") ++ maj ++ (c!":") ++ mi ++ (c!" ") ++ ino ++ (c!" ") ++ pad ++
        m.path.getD [] ++ (c!"\n") = [] ++ (lo ++ ((c!"-") ++ ([] ++ (hi ++ ((c!" ") ++ (m.perms ++ tl)))))) := by
      rw [← htl]; simp only [List.append_assoc, List.nil_append]
    have htlh : ∀ c, tl.head? = some c → isSpace c = true := by
      intro c hc
      rw [← htl] at hc
      have : ∀ t : Str, ((c!" ") ++ t).head? = some ' ' := fun _ => rfl
      simp only [List.append_assoc] at hc
      rw [this] at hc
      cases hc
      exact s0
    unfold scanLine
    rw [e1, scanNumber_spec hex_agree h1 [] _ (by simp) (by intro c hc; cases hc; decide +kernel)]
    simp only
    have e2 : ∀ t : Str, scanChar '-' ((c!"-") ++ t) = some t := by
      intro t
      show scanChar '-' ('-' :: t) = some t
      simp [scanChar]
    rw [e2]
    simp only
    rw [scanNumber_spec hex_agree h2 [] _ (by simp) (by intro c hc; cases hc; decide +kernel)]
    simp only
    rw [scanWord_spec (c!" ") m.perms tl (by intro c hc; rw [List.mem_singleton.1 hc]; exact s0) hperm hs.perms.2 htlh]
  · intro hp
    rw [ht, hp]
    have hall : ∀ c ∈ (c!" ") ++ pad ++ (none : Option Str).getD [] ++ (c!"\n"), isSpace c = true := by
      intro c hc
      simp only [Option.getD_none, List.append_nil, List.mem_append] at hc
      rcases hc with (hc | hc) | hc
      · rw [List.mem_singleton.1 hc]; exact s0
      · rw [hpad c hc]; exact s0
      · rw [List.mem_singleton.1 hc]; decide +kernel
    have : ltrim ((c!" ") ++ pad ++ (none : Option Str).getD [] ++ (c!"\n")) = [] := by
      unfold ltrim
      have := dropWhile_append_all isSpace _ [] hall
      rwa [List.append_nil] at this
    unfold scanWord
    simp only [this]
    rfl
  · intro p hp hsp
    rw [ht, hp]
    have e : (c!" ") ++ pad ++ (some p).getD [] ++ (c!"\n") = ((c!" ") ++ pad) ++ (p ++ (c!"\n")) := by simp [List.append_assoc]
    rw [e, scanWord_spec _ p _ ?_ (hs.path p hp).1 hsp ?_]
    · rfl
    · intro c hc
      rcases List.mem_append.1 hc with hc | hc
      · rw [List.mem_singleton.1 hc]; exact s0
      · rw [hpad c hc]; exact s0
    · intro c hc; cases hc; decide +kernel

theorem fgets_line : ∀ (n : Nat) (a rest : Str), '\n' ∉ a → a.length < n → fgetsN n (a ++ '\n' :: rest) = (a ++ ['\n'], rest) := by
  intro n
  induction n with
  | zero => intro a rest _ h; omega
  | succ n ih =>
    intro a rest ha hn
    cases a with
    | nil => simp [fgetsN]
    | cons c a =>
      have hc : c ≠ '\n' := fun e => ha (by simp [e])
      rw [List.cons_append, fgetsN, if_neg hc, ih a rest (fun h => ha (by simp [h])) (by simpa using hn)]
      rfl

theorem line_shape {m : Mapping} {l : Str} (hs : Sane m) (hl : Line m l) : ∃ a, l = a ++ ['\n'] ∧ '\n' ∉ a := by
  obtain ⟨lo, hi, off, maj, mi, ino, pad, h1, h2, h3, h4, h5, h6, hpad, rfl⟩ := hl
  refine ⟨_, rfl, ?_⟩
  have nx : ∀ {s : Str} {n : Nat}, Numeral hexes s n → '\n' ∉ s := fun h hm => absurd ((numeral_chars h).2 _ hm) (by decide +kernel)
  have nd : ∀ {s : Str} {n : Nat}, Numeral decs s n → '\n' ∉ s := fun h hm => absurd ((numeral_chars h).2 _ hm) (by decide +kernel)
  have hperm : '\n' ∉ m.perms := fun hm => absurd (hs.perms.2 _ hm) (by decide +kernel)
  have hpath : '\n' ∉ m.path.getD [] := by
    cases hp : m.path with
    | none => simp
    | some p => exact (hs.path p hp).2
  have hpd : '\n' ∉ pad := fun hm => absurd (hpad _ hm) (by decide)
  have l1 : '\n' ∉ (c!"-") := by decide
  have l2 : '\n' ∉ (c!" ") := by decide
  have l3 : '\n' ∉ (c!":") := by decide
  simp only [List.mem_append, not_or]
  exact ⟨⟨⟨⟨⟨⟨⟨⟨⟨⟨⟨⟨⟨⟨⟨nx h1, l1⟩, nx h2⟩, l2⟩, hperm⟩, l2⟩, nx h3⟩, l2⟩, nx h4⟩, l3⟩, nx h5⟩, l2⟩, nd h6⟩, l2⟩, hpd⟩, hpath⟩

/-- One line is read as its mapping says. -/
theorem scanFile_step (realpath : Str → Option Str) (addr rounds : Nat) {m : Mapping} {l : Str} (rest : Str) (hs : Sane m) (hl : Line m l)
    (hlen : l.length < 4096) : ∃ path, (m.path = none → path = none) ∧ (∀ p, m.path = some p → (∀ c ∈ p, isSpace c = false) → path = some p) ∧
    scanFile realpath addr (rounds + 1) (l ++ rest) = (match path with
      | none => scanFile realpath addr rounds rest
      | some p => if m.low ≤ addr ∧ addr ≤ m.high then some (realpath p) else scanFile realpath addr rounds rest) := by
  obtain ⟨path, h1, h2, h3⟩ := scanLine_head hs hl
  obtain ⟨a, rfl, ha⟩ := line_shape hs hl
  refine ⟨path, h2, h3, ?_⟩
  rw [scanFile, if_neg (by simp)]
  have e : a ++ ['\n'] ++ rest = a ++ '\n' :: rest := by simp
  rw [e, fgets_line 4095 a rest ha (by simp at hlen; omega)]
  simp only
  rw [h1]
  simp only
  rw [if_neg (by rw [hs.perms.1]; omega)]

/-- What is found if the mapping is among those read. -/
theorem scanFile_found (realpath : Str → Option Str) (addr : Nat) {ms : List Mapping} {text : Str} (hf : MapsFile ms text) :
    ∀ rounds, text.length < rounds → ∀ (m : Mapping) (p r : Str), m ∈ ms → Ordered ms → m.low ≤ addr → addr < m.high → m.path = some p →
      (∀ c ∈ p, isSpace c = false) → realpath p = some r → (∀ m' ∈ ms, m'.path ≠ none → m'.high ≠ addr) →
      scanFile realpath addr rounds text = some (some r) := by
  induction hf with
  | nil => intro _ _ m p r hm; simp at hm
  | @cons m0 ms l s hs hl hlen hf ih =>
    intro rounds hrounds m p r hm ho h1 h2 hp hsp hr hedge
    obtain ⟨rounds, rfl⟩ : ∃ k, rounds = k + 1 := ⟨rounds - 1, by omega⟩
    obtain ⟨path, k1, k2, k3⟩ := scanFile_step realpath addr rounds s hs hl hlen
    obtain ⟨a, ea, _⟩ := line_shape hs hl
    have hl1 : 1 ≤ l.length := by rw [ea]; simp
    rw [List.length_append] at hrounds
    rw [k3]
    rcases List.mem_cons.1 hm with rfl | hm
    · rw [k2 p hp hsp]
      simp only
      rw [if_pos ⟨h1, by omega⟩, hr]
    · have hrest : scanFile realpath addr rounds s = some (some r) :=
        ih rounds (by omega) m p r hm (List.pairwise_cons.1 ho).2 h1 h2 hp hsp hr (fun m' hm' => hedge m' (by simp [hm']))
      cases path with
      | none => exact hrest
      | some q =>
        simp only
        have hle := (List.pairwise_cons.1 ho).1 m hm
        have hpn : m0.path ≠ none := fun e => by have := k1 e; cases this
        have := hedge m0 (by simp) hpn
        rw [if_neg (by omega), hrest]

/-- Nothing is found if no file is mapped there. -/
theorem scanFile_none (realpath : Str → Option Str) (addr : Nat) {ms : List Mapping} {text : Str} (hf : MapsFile ms text) :
    ∀ rounds, (∀ m ∈ ms, m.path ≠ none → addr < m.low ∨ m.high < addr) → text.length < rounds → scanFile realpath addr rounds text = some none := by
  induction hf with
  | nil =>
    intro rounds _ h
    obtain ⟨k, rfl⟩ : ∃ k, rounds = k + 1 := ⟨rounds - 1, by simp at h; omega⟩
    rw [scanFile, if_pos rfl]
  | @cons m0 ms l s hs hl hlen hf ih =>
    intro rounds hno hrounds
    obtain ⟨rounds, rfl⟩ : ∃ k, rounds = k + 1 := ⟨rounds - 1, by omega⟩
    obtain ⟨path, k1, k2, k3⟩ := scanFile_step realpath addr rounds s hs hl hlen
    obtain ⟨a, ea, _⟩ := line_shape hs hl
    have hl1 : 1 ≤ l.length := by rw [ea]; simp
    rw [List.length_append] at hrounds
    have hrest := ih rounds (fun m hm => hno m (by simp [hm])) (by omega)
    rw [k3]
    cases path with
    | none => exact hrest
    | some q =>
      simp only
      have hpn : m0.path ≠ none := fun e => by have := k1 e; cases this
      have := hno m0 (by simp) hpn
      rw [if_neg (by omega), hrest]

/-- What holds of C242: the path has no blank, and the address is not the end of a mapped file.  Missing: those cases. -/
theorem C242_partial (realpath : Str → Option Str) (ms : List Mapping) (text : Str) (m : Mapping) (p r : Str) (addr : Nat)
    (hf : MapsFile ms text) (ho : Ordered ms) (hm : m ∈ ms) (h1 : m.low ≤ addr) (h2 : addr < m.high) (hp : m.path = some p)
    (hr : realpath p = some r) (hsp : ∀ c ∈ p, isSpace c = false) (hedge : ∀ m' ∈ ms, m'.path ≠ none → m'.high ≠ addr) :
    getModule realpath addr (fun _ => some text) = some (some r) := by
  unfold getModule modulePath
  simp only
  rw [scanFile_found realpath addr hf _ (by omega) m p r hm ho h1 h2 hp hsp hr hedge]

/-- If no file is mapped there, nothing is reported, after five attempts; no behaviour is undefined. -/
theorem C242_none (realpath : Str → Option Str) (addr : Nat) (file : Nat → Option Str)
    (h : ∀ i text, file i = some text → ∃ ms, MapsFile ms text ∧ ∀ m ∈ ms, m.path ≠ none → addr < m.low ∨ m.high < addr) :
    getModule realpath addr file = some none := by
  unfold getModule
  generalize (5 : Nat) = n
  induction n generalizing file with
  | zero => rfl
  | succ n ih =>
    unfold modulePath
    cases hf : file 0 with
    | none => rfl
    | some text =>
      simp only
      obtain ⟨ms, h1, h2⟩ := h 0 text hf
      rw [scanFile_none realpath addr h1 _ h2 (by omega)]
      exact ih (fun i => file (i + 1)) (fun i t ht => h (i + 1) t ht)

/-- A file that changes while it is read is read again: the first attempt that shows the mapping decides. -/
theorem C242_retry (realpath : Str → Option Str) (ms : List Mapping) (text : Str) (m : Mapping) (p r : Str) (addr k : Nat) (file : Nat → Option Str)
    (hk : k < 5) (hearly : ∀ i < k, ∃ t ms', file i = some t ∧ MapsFile ms' t ∧ ∀ m ∈ ms', m.path ≠ none → addr < m.low ∨ m.high < addr)
    (hfile : file k = some text) (hf : MapsFile ms text) (ho : Ordered ms) (hm : m ∈ ms) (h1 : m.low ≤ addr) (h2 : addr < m.high)
    (hp : m.path = some p) (hr : realpath p = some r) (hsp : ∀ c ∈ p, isSpace c = false) (hedge : ∀ m' ∈ ms, m'.path ≠ none → m'.high ≠ addr) :
    getModule realpath addr file = some (some r) := by
  unfold getModule
  generalize (5 : Nat) = n at hk
  induction k generalizing n file with
  | zero =>
    obtain ⟨n, rfl⟩ : ∃ j, n = j + 1 := ⟨n - 1, by omega⟩
    unfold modulePath
    rw [hfile]
    simp only
    rw [scanFile_found realpath addr hf _ (by omega) m p r hm ho h1 h2 hp hsp hr hedge]
  | succ k ih =>
    obtain ⟨n, rfl⟩ : ∃ j, n = j + 1 := ⟨n - 1, by omega⟩
    unfold modulePath
    obtain ⟨t, ms', e, f1, f2⟩ := hearly 0 (by omega)
    rw [e]
    simp only
    rw [scanFile_none realpath addr f1 _ f2 (by omega)]
    exact ih (fun i => file (i + 1)) (fun i hi => hearly (i + 1) (by omega)) hfile n (by omega)

/-! ### Examples and refutations -/

theorem numeral_hex1 (d : Nat) (c : Char) (h : hexes[d]? = some c) : Numeral hexes [c] d := .one h

theorem numeral_app {digits s : Str} {n d v : Nat} {c : Char} (h : Numeral digits s n) (hd : digits[d]? = some c)
    (hv : v = digits.length * n + d) : Numeral digits (s ++ [c]) v := by
  subst hv
  exact .more h hd

/-- Two libraries, one after the other. -/
def libA : Mapping := { low := 0x10, high := 0x20, perms := c!"r-xp", offset := 0, major := 8, minor := 1, inode := 7, path := some (c!"/lib/a.so") }
def libB : Mapping := { low := 0x20, high := 0x3f, perms := c!"r-xp", offset := 0, major := 8, minor := 1, inode := 9, path := some (c!"/my lib/b.so") }
def libC : Mapping := { low := 0x20, high := 0x3f, perms := c!"r-xp", offset := 0, major := 8, minor := 1, inode := 9, path := some (c!"/lib/c.so") }

theorem hex2 (a b : Nat) (c d : Char) (ha : hexes[a]? = some c) (hb : hexes[b]? = some d) : Numeral hexes [c, d] (16 * a + b) := .more (.one ha) hb

def fileAB : Str := (c!"10-20 r-xp 0 8:1 7    /lib/a.so\n") ++ (c!"20-3f r-xp 0 8:1 9    /my lib/b.so\n")
def fileAC : Str := (c!"10-20 r-xp 0 8:1 7    /lib/a.so\n") ++ (c!"20-3f r-xp 0 8:1 9    /lib/c.so\n")

theorem sane_of {m : Mapping} (h1 : m.low < m.high) (h2 : m.perms.length = 4) (h3 : ∀ c ∈ m.perms, isSpace c = false) {p : Str} (hp : m.path = some p)
    (h4 : p ≠ []) (h5 : '\n' ∉ p) : Sane m :=
  ⟨h1, ⟨h2, h3⟩, by intro q hq; rw [hp] at hq; cases hq; exact ⟨h4, h5⟩⟩

theorem mapsA : Sane libA ∧ Line libA (c!"10-20 r-xp 0 8:1 7    /lib/a.so\n") :=
  ⟨sane_of (by decide) rfl (by decide +kernel) rfl (by decide) (by decide),
    c!"10", c!"20", c!"0", c!"8", c!"1", c!"7", c!"   ", hex2 1 0 '1' '0' rfl rfl, hex2 2 0 '2' '0' rfl rfl, .one rfl, .one rfl, .one rfl, .one rfl,
    by decide, rfl⟩

theorem mapsB : Sane libB ∧ Line libB (c!"20-3f r-xp 0 8:1 9    /my lib/b.so\n") :=
  ⟨sane_of (by decide) rfl (by decide +kernel) rfl (by decide) (by decide),
    c!"20", c!"3f", c!"0", c!"8", c!"1", c!"9", c!"   ", hex2 2 0 '2' '0' rfl rfl, hex2 3 15 '3' 'f' rfl rfl, .one rfl, .one rfl, .one rfl, .one rfl,
    by decide, rfl⟩

theorem mapsC : Sane libC ∧ Line libC (c!"20-3f r-xp 0 8:1 9    /lib/c.so\n") :=
  ⟨sane_of (by decide) rfl (by decide +kernel) rfl (by decide) (by decide),
    c!"20", c!"3f", c!"0", c!"8", c!"1", c!"9", c!"   ", hex2 2 0 '2' '0' rfl rfl, hex2 3 15 '3' 'f' rfl rfl, .one rfl, .one rfl, .one rfl, .one rfl,
    by decide, rfl⟩

theorem file_ab : MapsFile [libA, libB] fileAB := by
  have := MapsFile.cons mapsA.1 mapsA.2 (by decide) (MapsFile.cons mapsB.1 mapsB.2 (by decide) .nil)
  rw [List.append_nil] at this
  exact this

theorem file_ac : MapsFile [libA, libC] fileAC := by
  have := MapsFile.cons mapsA.1 mapsA.2 (by decide) (MapsFile.cons mapsC.1 mapsC.2 (by decide) .nil)
  rw [List.append_nil] at this
  exact this

/-- The file system of the examples. -/
def real (p : Str) : Option Str := if p = (c!"/lib/a.so") ∨ p = (c!"/lib/c.so") ∨ p = (c!"/my lib/b.so") then some p else none

/-- The hypotheses of the partial theorem are met. -/
example : getModule real 0x25 (fun _ => some fileAC) = some (some (c!"/lib/c.so")) :=
  C242_partial real [libA, libC] fileAC libC (c!"/lib/c.so") (c!"/lib/c.so") 0x25 file_ac (by unfold Ordered; simp [libA, libC]) (by simp)
    (by decide) (by decide) rfl (by decide +kernel) (by decide +kernel)
    (by intro m' hm; simp at hm; rcases hm with rfl | rfl <;> decide)

/-- False of the code: a module whose path has a blank is not found. -/
theorem C242_refuted : ¬ C242_statement := by
  intro h
  have := h real [libA, libB] fileAB libB (c!"/my lib/b.so") (c!"/my lib/b.so") 0x25 file_ab (by unfold Ordered; simp [libA, libB]) (by simp)
    (by decide) (by decide) rfl (by decide +kernel)
  revert this
  decide +kernel

/-- Also the first address of a module that follows another one directly is taken for the other one. -/
theorem C242_edge : (libC.low ≤ 0x20 ∧ 0x20 < libC.high) ∧ getModule real 0x20 (fun _ => some fileAC) = some (some (c!"/lib/a.so")) :=
  ⟨by decide, by decide +kernel⟩

end Vital.GetPaths.Maps
