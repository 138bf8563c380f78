import Verif.SysInfo.Props2
/-
  Proofs of C222 and C217.
-/
namespace Vital.SysInfo
open Vital Vital.Stream

theorem pieces_line : ∀ (t acc rest : Str) (n k : Nat), '\n' ∉ t → k + t.length < n →
    pieces n k acc (t ++ '\n' :: rest) = (acc ++ t ++ ['\n']) :: pieces n 0 [] rest
  | [], acc, rest, n, k, _, _ => by simp [pieces]
  | c :: t, acc, rest, n, k, h, hk => by
    simp only [List.mem_cons, not_or] at h
    simp only [List.length_cons] at hk
    rw [List.cons_append, pieces, if_neg (by rintro (e | e); exact h.1 e.symm; omega), pieces_line t _ rest n (k + 1) h.2 (by omega)]
    simp

theorem blank_space {c : Char} (h : blank c = true) : isSpace c = true := by
  unfold blank at h
  unfold isSpace
  simp only [Bool.or_eq_true] at h ⊢
  rcases h with h | h <;> simp [h]

theorem entry_no_nl {e : Entry} (h : e.Ok) : '\n' ∉ e.text := by
  obtain ⟨h1, h2, h3, h4, h5, h6, h7⟩ := h
  unfold Entry.text
  simp only [List.mem_append, List.mem_cons, not_or]
  refine ⟨⟨⟨h2, by decide, fun hm => ?_⟩, fun hm => ?_⟩, h5⟩
  · have := h3 _ hm; revert this; decide
  · have := natStr_digits _ _ hm; revert this; decide

theorem pieces_file : ∀ (l : List Entry), (∀ e ∈ l, e.Ok) → pieces 1023 0 [] (memFile l) = l.map fun e => e.text ++ ['\n']
  | [], _ => rfl
  | e :: l, h => by
    have he := h e (by simp)
    rw [memFile, pieces_line _ _ _ _ _ (entry_no_nl he) (by have := he.2.2.2.2.2.2; omega), pieces_file l fun e he => h e (by simp [he])]
    rfl

theorem scanU_nat {gap rest : Str} {n : Nat} (hg : ∀ c ∈ gap, blank c = true) (hn : n < 2 ^ 64) (hr : ∀ c, rest.head? = some c → isDigit c = false) :
    scanU (gap ++ natStr n ++ rest) = some (n, rest) := by
  unfold scanU
  have h1 : ltrim (gap ++ natStr n ++ rest) = natStr n ++ rest := by
    rw [List.append_assoc, ltrim_append_spaces (fun c hc => blank_space (hg c hc))]
    refine ltrim_eq_self fun c hc => ?_
    have hne := natStr_ne_nil n
    cases hs : natStr n with
    | nil => exact absurd hs hne
    | cons x s =>
      rw [hs] at hc
      simp at hc
      subst hc
      exact isDigit_not_space (natStr_digits n _ (by rw [hs]; simp))
  rw [h1, splitSign_natStr]
  simp only [Bool.false_eq_true, if_false]
  rw [(takeWhile_all (natStr_digits n) rest hr).1, (takeWhile_all (natStr_digits n) rest hr).2, natStr_val, if_neg (natStr_ne_nil n)]
  congr 2
  omega

theorem colon_prefix {a b r : Str} (ha : ':' ∉ a) (hb : ':' ∉ b) : startsWith (a ++ ':' :: r) (b ++ [':']) = decide (a = b) := by
  rw [Bool.eq_iff_iff, startsWith_iff, decide_eq_true_iff]
  constructor
  · rintro ⟨t, h⟩
    rw [List.append_assoc] at h
    have s1 := split_char (x := ':') (b := r) ha
    have s2 := split_char (x := ':') (b := t) hb
    rw [h] at s1
    simp only [List.cons_append, List.nil_append] at s1
    rw [s2] at s1
    exact (Prod.mk.inj (Option.some.inj s1)).1.symm
  · rintro rfl
    exact ⟨r, by simp⟩

theorem scan_entry {e : Entry} (h : e.Ok) {name : Str} (hn : ':' ∉ name) :
    scanField (name ++ [':']) (e.text ++ ['\n']) = if e.name = name then some e.n else none := by
  obtain ⟨h1, h2, h3, h4, h5, h6, h7⟩ := h
  have e1 : e.text ++ ['\n'] = e.name ++ ':' :: (e.gap ++ natStr e.n ++ (e.rest ++ ['\n'])) := by simp [Entry.text]
  unfold scanField
  rw [e1, colon_prefix h1 hn]
  by_cases hk : e.name = name
  · rw [if_pos (by simpa using hk), if_pos hk, hk]
    have : (name ++ ':' :: (e.gap ++ natStr e.n ++ (e.rest ++ ['\n']))).drop (name ++ [':']).length = e.gap ++ natStr e.n ++ (e.rest ++ ['\n']) := by
      rw [show name ++ ':' :: (e.gap ++ natStr e.n ++ (e.rest ++ ['\n'])) = (name ++ [':']) ++ (e.gap ++ natStr e.n ++ (e.rest ++ ['\n'])) by simp]
      exact List.drop_left ..
    rw [this, scanU_nat h3 h4]
    · rfl
    · intro c hc
      cases hr : e.rest with
      | nil => rw [hr] at hc; simp at hc; subst hc; decide
      | cons x s => rw [hr] at hc; simp at hc; subst hc; exact h6 _ (by rw [hr]; rfl)
  · rw [if_neg (by simpa using hk), if_neg hk]

theorem fold_lines (a b c d e f : Str) : ∀ (ls : List Str) (v1 v2 v3 v4 v5 v6 : Option Nat),
    ls.foldl (fun vs l => scanLine l [a, b, c, d, e, f] vs) [v1, v2, v3, v4, v5, v6] =
      [v1.or (ls.findSome? (scanField a)), v2.or (ls.findSome? (scanField b)), v3.or (ls.findSome? (scanField c)), v4.or (ls.findSome? (scanField d)),
       v5.or (ls.findSome? (scanField e)), v6.or (ls.findSome? (scanField f))]
  | [], v1, v2, v3, v4, v5, v6 => by simp
  | l :: ls, v1, v2, v3, v4, v5, v6 => by
    have : scanLine l [a, b, c, d, e, f] [v1, v2, v3, v4, v5, v6] =
        [v1.or (scanField a l), v2.or (scanField b l), v3.or (scanField c l), v4.or (scanField d l), v5.or (scanField e l), v6.or (scanField f l)] := by
      cases v1 <;> cases v2 <;> cases v3 <;> cases v4 <;> cases v5 <;> cases v6 <;> rfl
    rw [List.foldl_cons, this, fold_lines a b c d e f ls]
    have key : ∀ (v : Option Nat) (n : Str), (v.or (scanField n l)).or (ls.findSome? (scanField n)) = v.or ((l :: ls).findSome? (scanField n)) := by
      intro v n
      cases v with
      | some v => rfl
      | none =>
        rw [List.findSome?_cons]
        cases scanField n l <;> rfl
    simp only [key]

theorem find_amount {name : Str} (hn : ':' ∉ name) : ∀ (l : List Entry), (∀ e ∈ l, e.Ok) →
    (l.map fun e => e.text ++ ['\n']).findSome? (scanField (name ++ [':'])) = amount l name
  | [], _ => rfl
  | e :: l, h => by
    rw [List.map_cons, List.findSome?_cons, scan_entry (h e (by simp)) hn, find_amount hn l fun e he => h e (by simp [he])]
    unfold amount
    rw [List.find?_cons]
    by_cases hk : e.name = name
    · rw [if_pos hk]; simp [hk]
    · rw [if_neg hk]; simp [hk]

theorem newMem_file {l : List Entry} {t f b c st sf : Nat} (h : Amounts l t f b c st sf) :
    newMem (memFile l) = some ⟨t / 1024, (f + b + c) / 1024, st / 1024, sf / 1024⟩ := by
  unfold newMem fieldNames
  rw [pieces_file l h.ok, fold_lines]
  have e : ∀ (name : Str), ':' ∉ name → (l.map fun e => e.text ++ ['\n']).findSome? (scanField (name ++ [':'])) = amount l name :=
    fun name hn => find_amount hn l h.ok
  have e1 := e (c!"MemTotal") (by decide)
  have e2 := e (c!"MemFree") (by decide)
  have e3 := e (c!"Buffers") (by decide)
  have e4 := e (c!"Cached") (by decide)
  have e5 := e (c!"SwapTotal") (by decide)
  have e6 := e (c!"SwapFree") (by decide)
  rw [h.total] at e1
  rw [h.free] at e2
  rw [h.buffers] at e3
  rw [h.cached] at e4
  rw [h.swapTotal] at e5
  rw [h.swapFree] at e6
  simp only [List.cons_append, List.nil_append] at e1 e2 e3 e4 e5 e6
  rw [e1, e2, e3, e4, e5, e6]
  simp only [Option.none_or]
  rw [Nat.mod_eq_of_lt h.fits]

theorem digit_str : ∀ n : Nat, n < 10 → ∃ c, natStr n = [c] ∧ isDigit c = true ∧ digitVal c = n := by
  intro n hn
  have e : natStr n = [digitChar n] := by unfold natStr natStrF; rw [if_pos hn]
  refine ⟨digitChar n, e, isDigit_digitChar n, ?_⟩
  have := natStr_val n
  rw [e] at this
  simpa [digitsVal] using this

theorem release_new {major minor : Nat} {rest : Str} (h : (3 ≤ major ∧ major ≤ 9) ∨ (major = 2 ∧ 6 ≤ minor ∧ minor ≤ 9)) : isNew (release major minor rest) = true := by
  obtain ⟨c, e1, e2, e3⟩ := digit_str major (by omega)
  have hne := natStr_ne_nil minor
  obtain ⟨x, m, hm⟩ := List.exists_cons_of_ne_nil hne
  unfold isNew release
  rw [e1, hm]
  simp only [List.cons_append, List.nil_append, List.length_cons]
  rw [if_pos (by omega), if_pos (by omega)]
  simp only [digitAt, List.getElem?_cons_zero, List.getElem?_cons_succ, e2, if_true, e3, Bool.or_eq_true, Bool.and_eq_true, decide_eq_true_eq]
  rcases h with h | ⟨h1, h2, h3⟩
  · left; omega
  · right
    refine ⟨by omega, ?_⟩
    obtain ⟨y, f1, f2, f3⟩ := digit_str minor (by omega)
    rw [hm] at f1
    cases f1
    refine decide_eq_true ?_
    show 6 ≤ if isDigit x = true then digitVal x else 0
    rw [if_pos f2, f3]
    exact h2

/-- C222 for the kernels 2.6 - 2.9 and 3 - 9. -/
theorem C222_partial (u : Uname) (major minor : Nat) (rest : Str) (l : List Entry) (t f b c st sf : Nat)
    (hu : u.release = release major minor rest) (hv : (3 ≤ major ∧ major ≤ 9) ∨ (major = 2 ∧ 6 ≤ minor ∧ minor ≤ 9)) (h : Amounts l t f b c st sf) :
    memInfo (some u) (some (memFile l)) = ⟨t / 1024, (f + b + c) / 1024, st / 1024, sf / 1024⟩ := by
  unfold memInfo
  simp only
  rw [hu, release_new hv, if_pos rfl, newMem_file h]
  rfl

theorem release_old : ∀ major, 10 ≤ major → major ≤ 29 → ∀ (minor : Nat) (rest : Str), isNew (release major minor rest) = false := by
  intro major h1 h2 minor rest
  obtain ⟨a, ha, hs⟩ : ∃ a b, (digitVal a < 3 ∧ isDigit a = true) ∧ natStr major = [a, b] := by
    have : ∀ m, m < 30 → 10 ≤ m → (match natStr m with | [a, _] => decide (digitVal a < 3) && isDigit a | _ => false) = true := by decide +kernel
    have := this major (by omega) h1
    split at this
    · rename_i a b e
      simp only [Bool.and_eq_true, decide_eq_true_eq] at this
      exact ⟨a, b, this, e⟩
    · cases this
  obtain ⟨⟨h3, h4⟩, hs⟩ := hs
  unfold isNew release
  rw [hs]
  simp only [List.cons_append, List.nil_append, List.length_cons]
  rw [if_pos (by omega), if_pos (by omega)]
  simp only [digitAt, List.getElem?_cons_zero, List.getElem?_cons_succ, h4, if_true]
  simp
  refine ⟨by omega, fun _ => ?_⟩
  decide

theorem memLit {a r : Str} (ha : ':' ∉ a) (hk : a ≠ c!"Mem") : scanLit (c!"Mem:") (a ++ ':' :: r) = none := by
  have key : ∀ (l s : Str), (∀ c ∈ l, isSpace c = false) → startsWith s l = false → scanLit l s = none := by
    intro l
    induction l with
    | nil => intro s _ h; simp [startsWith] at h
    | cons x l ih =>
      intro s hl h
      unfold scanLit
      rw [if_neg (by simpa using hl x (by simp))]
      cases s with
      | nil => rfl
      | cons d s =>
        simp only
        split
        · rename_i e
          refine ih s (fun c hc => hl c (by simp [hc])) ?_
          rw [← h, Bool.eq_iff_iff, startsWith_iff, startsWith_iff, e]
          simp
        · rfl
  refine key _ _ (by decide) ?_
  have := colon_prefix (r := r) ha (show ':' ∉ c!"Mem" by decide)
  rw [show (c!"Mem:") = (c!"Mem") ++ [':'] by rfl, this]
  simpa using hk

/-- Kernels 10 - 29: everything is 0. -/
theorem C222_zero (u : Uname) (major minor : Nat) (rest : Str) (e1 e2 : Entry) (l : List Entry) (hu : u.release = release major minor rest)
    (h1 : 10 ≤ major) (h2 : major ≤ 29) (o1 : e1.Ok) (o2 : e2.Ok) (hk : e2.name ≠ c!"Mem") :
    memInfo (some u) (some (memFile (e1 :: e2 :: l))) = ⟨0, 0, 0, 0⟩ := by
  unfold memInfo
  simp only
  rw [hu, release_old major h1 h2]
  simp only [Bool.false_eq_true, if_false]
  have : oldMem (memFile (e1 :: e2 :: l)) = none := by
    unfold oldMem
    rw [memFile, pieces_line _ _ _ _ _ (entry_no_nl o1) (by have := o1.2.2.2.2.2.2; omega)]
    simp only [List.nil_append]
    have hd : (e1.text ++ '\n' :: memFile (e2 :: l)).drop (e1.text ++ ['\n']).length = e2.name ++ ':' :: (e2.gap ++ natStr e2.n ++ e2.rest ++ '\n' :: memFile l) := by
      rw [show e1.text ++ '\n' :: memFile (e2 :: l) = (e1.text ++ ['\n']) ++ memFile (e2 :: l) by simp, List.drop_left, memFile, Entry.text]
      simp
    rw [hd, memLit o2.1 hk]
  rw [this]
  rfl

/-- A file of a machine with 16 GiB. -/
def exMem : List Entry :=
  [⟨c!"MemTotal", c!"       ", 16777216, c!" kB"⟩, ⟨c!"MemFree", c!"        ", 1048576, c!" kB"⟩, ⟨c!"MemAvailable", c!"  ", 4000000, c!" kB"⟩,
   ⟨c!"Buffers", c!"  ", 2048, c!" kB"⟩, ⟨c!"Cached", c!"  ", 1024, c!" kB"⟩, ⟨c!"SwapCached", c!" ", 7, c!" kB"⟩,
   ⟨c!"SwapTotal", c!" ", 2097152, c!" kB"⟩, ⟨c!"SwapFree", c!" ", 2097151, c!" kB"⟩, ⟨c!"HugePages_Total", c!" ", 0, []⟩]

theorem exMem_ok : ∀ e ∈ exMem, e.Ok := by
  intro e he
  simp only [exMem, List.mem_cons, List.not_mem_nil, or_false] at he
  rcases he with rfl | rfl | rfl | rfl | rfl | rfl | rfl | rfl | rfl <;>
    refine ⟨by decide, by decide, by decide, by decide, by decide, ?_, by decide +kernel⟩ <;> intro c hc <;> simp at hc <;> subst hc <;> decide

theorem exMem_amounts : Amounts exMem 16777216 1048576 2048 1024 2097152 2097151 :=
  ⟨exMem_ok, by decide +kernel, by decide +kernel, by decide +kernel, by decide +kernel, by decide +kernel, by decide +kernel, by decide⟩

def exUname : Uname := ⟨c!"Linux", c!"node7", release 6 12 (c!".5-generic"), c!"#1 SMP", c!"x86_64"⟩

example : memInfo (some exUname) (some (memFile exMem)) = ⟨16384, 1027, 2048, 2047⟩ :=
  C222_partial exUname 6 12 _ exMem _ _ _ _ _ _ rfl (.inl (by decide)) exMem_amounts

/-- C222 is false of the code: kernels 10 to 29 are taken for old ones and all amounts are 0. -/
theorem C222_refuted : ¬ C222_statement ∧
    ∀ (u : Uname) (major minor : Nat) (rest : Str) (e1 e2 : Entry) (l : List Entry), u.release = release major minor rest → 10 ≤ major → major ≤ 29 →
      e1.Ok → e2.Ok → e2.name ≠ c!"Mem" → memInfo (some u) (some (memFile (e1 :: e2 :: l))) = ⟨0, 0, 0, 0⟩ := by
  refine ⟨fun h => ?_, C222_zero⟩
  have h1 := h { exUname with release := release 10 0 [] } 10 0 [] exMem _ _ _ _ _ _ rfl (.inl (by decide)) (by intro x hx; cases hx) exMem_amounts
  have h2 := C222_zero { exUname with release := release 10 0 [] } 10 0 [] _ _ (exMem.drop 2) rfl (by decide) (by decide)
    (exMem_ok ⟨c!"MemTotal", c!"       ", 16777216, c!" kB"⟩ (by simp [exMem])) (exMem_ok ⟨c!"MemFree", c!"        ", 1048576, c!" kB"⟩ (by simp [exMem])) (by decide)
  exact absurd (h2.symm.trans h1) (by decide)

/-! ### The old format -/

theorem scanUs_numbers : ∀ (l : List (Str × Nat)) (r : Str), Spaced l → (∀ c, r.head? = some c → isDigit c = false) →
    scanUs l.length (numbers l ++ r) = some (l.map (·.2), r)
  | [], r, _, _ => rfl
  | (gap, n) :: l, r, h, hr => by
    obtain ⟨h1, h2, h3⟩ := h (gap, n) (by simp)
    have ih := scanUs_numbers l r (fun p hp => h p (by simp [hp])) hr
    have e : numbers ((gap, n) :: l) ++ r = gap ++ natStr n ++ (numbers l ++ r) := by simp [numbers]
    rw [e, List.length_cons, scanUs, scanU_nat h2 h3]
    · simp only
      rw [ih]
      rfl
    · intro c hc
      cases l with
      | nil => exact hr c hc
      | cons p l =>
        obtain ⟨g, k⟩ := p
        obtain ⟨k1, k2, k3⟩ := h (g, k) (by simp)
        obtain ⟨x, g', rfl⟩ := List.exists_cons_of_ne_nil k1
        simp [numbers] at hc
        subst hc
        have := k2 x (by simp)
        cases hd : isDigit x with
        | false => rfl
        | true =>
          have := isDigit_not_space hd
          rw [blank_space (k2 x (by simp))] at this
          cases this

theorem old_release {minor : Nat} {rest : Str} (h : minor ≤ 5) : isNew (release 2 minor rest) = false := by
  obtain ⟨c, e1, e2, e3⟩ := digit_str minor (by omega)
  unfold isNew release
  rw [e1]
  simp only [show natStr 2 = ['2'] by decide, List.cons_append, List.nil_append, List.length_cons]
  rw [if_pos (by omega), if_pos (by omega)]
  simp only [digitAt, List.getElem?_cons_zero, List.getElem?_cons_succ, e2, if_true, e3]
  simp
  exact ⟨by decide, fun _ => by omega⟩

/-- The old format, for the kernels 2.0 - 2.5: bytes are reported in MiB. -/
theorem C222_old (u : Uname) (minor : Nat) (rest header tail : Str) (g : Fin 9 → Str) (tp up fp sh bu ca tv uv fv : Nat)
    (hu : u.release = release 2 minor rest) (hm : minor ≤ 5) (hh : '\n' ∉ header) (hl : header.length < 1023)
    (h1 : Spaced [(g 0, tp), (g 1, up), (g 2, fp), (g 3, sh), (g 4, bu), (g 5, ca)]) (h2 : Spaced [(g 6, tv), (g 7, uv), (g 8, fv)]) (hs : fp + bu + ca < 2 ^ 64) :
    memInfo (some u) (some (oldFile header [(g 0, tp), (g 1, up), (g 2, fp), (g 3, sh), (g 4, bu), (g 5, ca)] [(g 6, tv), (g 7, uv), (g 8, fv)] tail)) =
      ⟨tp / 2 ^ 20, (fp + bu + ca) / 2 ^ 20, tv / 2 ^ 20, fv / 2 ^ 20⟩ := by
  unfold memInfo
  simp only
  rw [hu, old_release hm]
  simp only [Bool.false_eq_true, if_false]
  generalize hmem : [(g 0, tp), (g 1, up), (g 2, fp), (g 3, sh), (g 4, bu), (g 5, ca)] = mem at h1
  generalize hswap : [(g 6, tv), (g 7, uv), (g 8, fv)] = swap at h2
  have hml : mem.length = 6 := by rw [← hmem]; rfl
  have hsl : swap.length = 3 := by rw [← hswap]; rfl
  have e : oldFile header mem swap tail = header ++ '\n' :: ((c!"Mem:") ++ (numbers mem ++ '\n' :: ((c!"Swap:") ++ (numbers swap ++ '\n' :: tail)))) := by
    simp [oldFile]
  have lit1 : ∀ s, scanLit (c!"Mem:") ((c!"Mem:") ++ s) = some s := by intro s; simp [scanLit, isSpace]
  have lit2 : ∀ s, scanLit (c!"Swap:") ((c!"Swap:") ++ s) = some s := by intro s; simp [scanLit, isSpace]
  have lt : ∀ s : Str, ltrim ('\n' :: ((c!"Swap:") ++ s)) = (c!"Swap:") ++ s := by
    intro s
    simp [ltrim, List.dropWhile, isSpace]
  have n1 := scanUs_numbers mem ('\n' :: ((c!"Swap:") ++ (numbers swap ++ '\n' :: tail))) h1 (by intro c hc; simp at hc; subst hc; decide)
  have n2 := scanUs_numbers swap ('\n' :: tail) h2 (by intro c hc; simp at hc; subst hc; decide)
  rw [hml] at n1
  rw [hsl] at n2
  have old : oldMem (oldFile header mem swap tail) = some ⟨tp / 2 ^ 10 / 2 ^ 10, (fp + bu + ca) % 2 ^ 64 / 2 ^ 10 / 2 ^ 10, tv / 2 ^ 10 / 2 ^ 10, fv / 2 ^ 10 / 2 ^ 10⟩ := by
    unfold oldMem
    rw [e, pieces_line _ _ _ _ _ hh (by omega)]
    simp only [List.nil_append]
    have hd : ∀ s : Str, (header ++ '\n' :: s).drop (header ++ ['\n']).length = s := by
      intro s
      rw [show header ++ '\n' :: s = (header ++ ['\n']) ++ s by simp, List.drop_left]
    rw [hd, lit1]
    simp only
    rw [n1]
    simp only [← hmem, List.map_cons, List.map_nil]
    rw [lt, lit2]
    simp only
    rw [n2]
    simp only [← hswap, List.map_cons, List.map_nil]
  rw [old]
  simp only [Option.getD_some, Nat.div_div_eq_div_mul, Nat.mod_eq_of_lt hs]

example : memInfo (some { exUname with release := c!"2.4.20-8" })
    (some (c!"        total:    used:    free:  shared: buffers:  cached:\nMem:  536870912 1 268435456 0 1048576 2097152\nSwap: 1073741824 0 1073741823\n")) = ⟨512, 259, 1024, 1023⟩ := by
  have := C222_old { exUname with release := c!"2.4.20-8" } 4 (c!".20-8") (c!"        total:    used:    free:  shared: buffers:  cached:") []
    (fun i => if i = 0 then c!"  " else c!" ") 536870912 1 268435456 0 1048576 2097152 1073741824 0 1073741823 (by decide +kernel) (by decide) (by decide) (by decide)
    (by intro p hp; simp at hp; rcases hp with rfl | rfl | rfl | rfl | rfl | rfl <;> exact ⟨by decide, by decide, by decide⟩)
    (by intro p hp; simp at hp; rcases hp with rfl | rfl | rfl <;> exact ⟨by decide, by decide, by decide⟩) (by decide)
  exact this

/-! ### C217: $SYSENV -/

theorem fqdn_domain (host : Str) : ∀ (names : List (Option Str)), IsDomain host (names.filterMap id) (fqdnLoop host names)
  | [] => .inr ⟨rfl, by simp⟩
  | none :: l => by
    have := fqdn_domain host l
    simpa [fqdnLoop] using this
  | some h :: l => by
    unfold fqdnLoop
    by_cases hc : host <:+: h ∧ host.length < h.length
    · rw [if_pos ⟨split_isSome.2 hc.1, hc.2⟩]
      exact .inl ⟨[], l.filterMap id, by simp, hc, by simp⟩
    · rw [if_neg (fun h' => hc ⟨split_isSome.1 h'.1, h'.2⟩)]
      rcases fqdn_domain host l with ⟨a, b, h1, h2, h3⟩ | ⟨h1, h2⟩
      · refine .inl ⟨h :: a, b, by simp [h1], h2, ?_⟩
        intro n hn
        simp only [List.mem_cons] at hn
        rcases hn with rfl | hn
        · exact hc
        · exact h3 n hn
      · refine .inr ⟨h1, ?_⟩
        intro n hn
        simp only [List.filterMap_cons, id, List.mem_cons] at hn
        rcases hn with rfl | hn
        · exact hc
        · exact h2 n hn

/-- C217: the names and their values; no other name has one. -/
theorem C217_sysenv (m : Machine) (l : List (Option Field)) (e : List Entry) (u : Uname) (host : Str) (names : List (Option Str))
    (t f b c st sf : Nat) (h : Described m l e u host names t f b c st sf) (i : Info) (hi : checks m = .ok i) :
    ∃ domain, IsDomain host (names.filterMap id) domain ∧
      ∀ name, lookup m i name = (table m (numOf l (c!"processor")) t (f + b + c) st sf u domain).lookup name := by
  obtain ⟨major, minor, rest, hr, hv⟩ := h.kernel
  have hmem := C222_partial u major minor rest e t f b c st sf hr hv h.amounts
  refine ⟨fqdnLoop host names, fqdn_domain host names, fun name => ?_⟩
  unfold checks at hi
  rw [h.cpu, h.os, h.mem, hmem] at hi
  cases hc : cpuInfo (some (cpuFile l)) with
  | error x => rw [hc] at hi; cases hi
  | ok cpu =>
    rw [hc] at hi
    have hlog := C219_logical l h.procs cpu hc
    cases hi
    have hhost : getHostname m ⟨cpu, ⟨t / 1024, (f + b + c) / 1024, st / 1024, sf / 1024⟩, u.sysname, u.nodename, u.release, u.version, u.machine⟩ = u.nodename := by
      unfold getHostname
      rw [h.os]
      simp only
      split
      · rfl
      · rfl
    have hdom : fqdn m = fqdnLoop host names := by
      unfold fqdn
      rw [h.hostname, h.ifaces]
    by_cases n0 : name = c!"cwd"
    · subst n0
      simp [lookup, table, List.lookup, boolText, hhost, hdom, hlog]
    by_cases n1 : name = c!"numproc"
    · subst n1
      simp [lookup, table, List.lookup, boolText, hhost, hdom, hlog]
    by_cases n2 : name = c!"totalvirtualmemory"
    · subst n2
      simp [lookup, table, List.lookup, boolText, hhost, hdom, hlog]
    by_cases n3 : name = c!"availablevirtualmemory"
    · subst n3
      simp [lookup, table, List.lookup, boolText, hhost, hdom, hlog]
    by_cases n4 : name = c!"totalphysicalmemory"
    · subst n4
      simp [lookup, table, List.lookup, boolText, hhost, hdom, hlog]
    by_cases n5 : name = c!"availablephysicalmemory"
    · subst n5
      simp [lookup, table, List.lookup, boolText, hhost, hdom, hlog]
    by_cases n6 : name = c!"hostname"
    · subst n6
      simp [lookup, table, List.lookup, boolText, hhost, hdom, hlog]
    by_cases n7 : name = c!"domainname"
    · subst n7
      simp [lookup, table, List.lookup, boolText, hhost, hdom, hlog]
    by_cases n8 : name = c!"osname"
    · subst n8
      simp [lookup, table, List.lookup, boolText, hhost, hdom, hlog]
    by_cases n9 : name = c!"osdescription"
    · subst n9
      simp [lookup, table, List.lookup, boolText, hhost, hdom, hlog]
    by_cases n10 : name = c!"osplatform"
    · subst n10
      simp [lookup, table, List.lookup, boolText, hhost, hdom, hlog]
    by_cases n11 : name = c!"osversion"
    · subst n11
      simp [lookup, table, List.lookup, boolText, hhost, hdom, hlog]
    by_cases n12 : name = c!"is64bits"
    · subst n12
      simp [lookup, table, List.lookup, boolText, hhost, hdom, hlog]
    by_cases n13 : name = c!"iswindows"
    · subst n13
      simp [lookup, table, List.lookup, boolText, hhost, hdom, hlog]
    by_cases n14 : name = c!"islinux"
    · subst n14
      simp [lookup, table, List.lookup, boolText, hhost, hdom, hlog]
    by_cases n15 : name = c!"isapple"
    · subst n15
      simp [lookup, table, List.lookup, boolText, hhost, hdom, hlog]
    have l1 : lookup m ⟨cpu, ⟨t / 1024, (f + b + c) / 1024, st / 1024, sf / 1024⟩, u.sysname, u.nodename, u.release, u.version, u.machine⟩ name = none := by
      unfold lookup
      simp only [if_neg n0, if_neg n1, if_neg n2, if_neg n3, if_neg n4, if_neg n5, if_neg n6, if_neg n7, if_neg n8, if_neg n9, if_neg n10, if_neg n11, if_neg n12, if_neg n13, if_neg n14, if_neg n15]
    rw [l1]
    symm
    rw [List.lookup_eq_none_iff]
    intro p hp
    simp only [table, List.mem_cons, List.not_mem_nil, or_false] at hp
    rw [bne_iff_ne]
    rcases hp with rfl | rfl | rfl | rfl | rfl | rfl | rfl | rfl | rfl | rfl | rfl | rfl | rfl | rfl | rfl | rfl <;> assumption

/-- A machine. -/
def exMachine : Machine where
  cwd := c!"/home/u"
  cpuinfo := some (cpuFile desktop)
  meminfo := some (memFile exMem)
  uname := some exUname
  hostname := some (c!"node7")
  ifaces := some [none, some (c!"localhost"), some (c!"node7"), some (c!"node7.example.org"), some (c!"node7.example.net")]
  ptrSize := 8

theorem exMachine_described : Described exMachine desktop exMem exUname (c!"node7")
    [none, some (c!"localhost"), some (c!"node7"), some (c!"node7.example.org"), some (c!"node7.example.net")] 16777216 1048576 2048 1024 2097152 2097151 where
  cpu := rfl
  procs := procs_check (by decide +kernel)
  mem := rfl
  amounts := exMem_amounts
  os := rfl
  kernel := ⟨6, 12, c!".5-generic", rfl, .inl (by decide)⟩
  hostname := rfl
  ifaces := rfl

/-- A concrete case for C217. -/
example : ∃ i, checks exMachine = .ok i ∧ lookup exMachine i (c!"numproc") = some (c!"1") ∧ lookup exMachine i (c!"totalphysicalmemory") = some (c!"16384") ∧
    lookup exMachine i (c!"domainname") = some (c!"node7.example.org") ∧ lookup exMachine i (c!"nosuch") = none := by
  cases h : checks exMachine with
  | error x =>
    have : (match checks exMachine with | .error _ => false | .ok _ => true) = true := by decide +kernel
    rw [h] at this
    cases this
  | ok i =>
    obtain ⟨d, h1, h2⟩ := C217_sysenv _ _ _ _ _ _ _ _ _ _ _ _ exMachine_described i h
    have n1 : natStr (numOf desktop (c!"processor")) = c!"1" := by decide +kernel
    have n2 : natStr (16777216 / 1024) = c!"16384" := by decide +kernel
    refine ⟨i, rfl, (h2 _).trans (by simp [table, List.lookup, n1]), (h2 _).trans (by simp only [table, n2]; simp [List.lookup]), ?_, (h2 _).trans (by simp [table, List.lookup])⟩
    have : (match checks exMachine with | .error _ => none | .ok i => lookup exMachine i (c!"domainname")) = some (c!"node7.example.org") := by decide +kernel
    rw [h] at this
    exact this

/-- The queries cannot even be set up (a standard exception, not one of the library) exactly if /proc/cpuinfo is empty; sizes of int are not
    exceeded by the count of the cores. -/
theorem C217_setup (m : Machine) (n : checks m ≠ .error .overflow) : (∃ i, checks m = .ok i) ↔ m.cpuinfo ≠ some [] := by
  have key : checks m = .error .length ↔ m.cpuinfo = some [] := by
    rw [← C219_empty]
    unfold checks
    cases cpuInfo m.cpuinfo with
    | error x => simp
    | ok c =>
      simp only
      cases m.uname <;> simp
  cases h : checks m with
  | ok i =>
    simp only [Except.ok.injEq, exists_eq', true_iff]
    intro he
    rw [key.2 he] at h
    cases h
  | error x =>
    cases x with
    | length => simpa using key.1 h
    | overflow => exact absurd h n

/-- The count does not exceed an int on a machine with packages and cores numbered as usual. -/
theorem C217_no_overflow (m : Machine) (l : List (Option Field)) (packages cores : Nat) (hm : m.cpuinfo = some (cpuFile l)) (h : Cores l packages cores)
    (hp : 2 ≤ packages ∨ ∀ f ∈ fields l, f.key ≠ c!"ncpus active") : checks m ≠ .error .overflow := by
  have : ∃ c, cpuInfo (some (cpuFile l)) = .ok c := by
    by_cases h2 : 2 ≤ packages
    · obtain ⟨c, h1, _⟩ := C220_partial l packages cores h h2
      exact ⟨c, h1⟩
    · have : packages = 1 := by have := h.pos.1; omega
      subst this
      obtain ⟨c, h1, _⟩ := C220_single l cores h (hp.resolve_left h2)
      exact ⟨c, h1⟩
  obtain ⟨c, hc⟩ := this
  unfold checks
  rw [hm, hc]
  simp only
  cases m.uname <;> simp

end Vital.SysInfo
