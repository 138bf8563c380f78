import Verif.Sys.Locate
import Verif.Sys.PathsProps
/- Proofs of C235 - C241. -/
namespace Vital.Sys.Loc
open Vital Vital.Sys

/-! ### C235 -/

theorem cut_some : ∀ {s x r : Str}, cutNewline s = some (x, r) → s = x ++ '\n' :: r ∧ '\n' ∉ x
  | [], _, _, h => by cases h
  | c :: s, x, r, h => by
    unfold cutNewline at h
    split at h
    · rename_i hc
      cases h; subst hc; exact ⟨rfl, by simp⟩
    · rename_i hc
      cases hs : cutNewline s with
      | none => rw [hs] at h; cases h
      | some p =>
        rw [hs] at h
        cases h
        obtain ⟨h1, h2⟩ := cut_some (x := p.1) (r := p.2) hs
        refine ⟨by rw [h1]; rfl, ?_⟩
        simp only [List.mem_cons, not_or]
        exact ⟨fun e => hc e.symm, h2⟩

theorem cut_none : ∀ {s : Str}, cutNewline s = none → '\n' ∉ s
  | [], _ => by simp
  | c :: s, h => by
    unfold cutNewline at h
    split at h
    · cases h
    · rename_i hc
      cases hs : cutNewline s with
      | none =>
        simp only [List.mem_cons, not_or]
        exact ⟨fun e => hc e.symm, cut_none hs⟩
      | some p => rw [hs] at h; cases h

theorem splitLines_spec : ∀ (n : Nat) (data : Str) (lines : List Str), data.length < n →
    ∃ l b, splitLines n data lines = (lines ++ l, b) ∧ Lines data l b
  | 0, _, _, h => by omega
  | n + 1, data, lines, h => by
    unfold splitLines
    split
    · rename_i e; subst e; exact ⟨[], true, by simp, .nil⟩
    · rename_i hne
      split
      · rename_i hc; exact ⟨[data], false, rfl, .last hne (cut_none hc)⟩
      · rename_i line rest hc
        obtain ⟨h1, h2⟩ := cut_some hc
        have hlen : rest.length < n := by rw [h1] at h; simp at h; omega
        split
        · rename_i hl
          obtain ⟨l, b, h3, h4⟩ := splitLines_spec n rest (lines ++ [line.dropLast]) hlen
          refine ⟨line.dropLast :: l, b, by rw [h3]; simp, ?_⟩
          have hline : line = line.dropLast ++ ['\r'] := by
            cases hx : line with
            | nil => rw [hx] at hl; cases hl
            | cons a m =>
              rw [hx] at hl
              rw [List.getLast?_eq_some_getLast (by simp)] at hl
              rw [← Option.some.inj hl]
              exact (List.dropLast_concat_getLast (by simp)).symm
          rw [h1]
          conv => arg 1; rw [hline]
          rw [List.append_assoc]
          refine Lines.dos (fun hm => h2 ?_) h4
          exact (List.dropLast_sublist _).mem hm
        · rename_i hl
          obtain ⟨l, b, h3, h4⟩ := splitLines_spec n rest (lines ++ [line]) hlen
          exact ⟨line :: l, b, by rw [h3]; simp, by rw [h1]; exact .unix h2 hl h4⟩

/-- C235: the lines are added at the end, and the result tells whether the last one was terminated. -/
theorem C235_split (data : Str) (lines : List Str) : ∃ l b, split data lines = (lines ++ l, b) ∧ Lines data l b :=
  splitLines_spec _ _ _ (by omega)

theorem first_newline {x y s t : Str} (hx : '\n' ∉ x) (hy : '\n' ∉ y) (h : x ++ '\n' :: s = y ++ '\n' :: t) : x = y ∧ s = t := by
  induction x generalizing y with
  | nil =>
    cases y with
    | nil => exact ⟨rfl, (List.cons.inj h).2⟩
    | cons c y => exact absurd (List.cons.inj h).1 (fun e => hy (by rw [e]; simp))
  | cons d x ih =>
    cases y with
    | nil => exact absurd (List.cons.inj h).1.symm (fun e => hx (by rw [e]; simp))
    | cons c y =>
      obtain ⟨h1, h2⟩ := List.cons.inj h
      obtain ⟨h3, h4⟩ := ih (fun hm => hx (by simp [hm])) (fun hm => hy (by simp [hm])) h2
      exact ⟨by rw [h1, h3], h4⟩

/-- C235, the specification leaves no choice: a text has one division into lines. -/
theorem C235_unique {s : Str} {l : List Str} {b : Bool} (h : Lines s l b) : ∀ {l' : List Str} {b' : Bool}, Lines s l' b' → l = l' ∧ b = b' := by
  have form : ∀ {s : Str} {l : List Str} {b : Bool}, Lines s l b → (s = [] ∧ l = [] ∧ b = true) ∨ (s ≠ [] ∧ '\n' ∉ s ∧ l = [s] ∧ b = false) ∨
      ∃ y t m, s = y ++ '\n' :: t ∧ '\n' ∉ y ∧ Lines t m b ∧ ((y.getLast? ≠ some '\r' ∧ l = y :: m) ∨ ∃ z, y = z ++ ['\r'] ∧ l = z :: m) := by
    intro s l b h
    cases h with
    | nil => exact .inl ⟨rfl, rfl, rfl⟩
    | last h1 h2 => exact .inr (.inl ⟨h1, h2, rfl, rfl⟩)
    | @unix x s m _ h1 h2 h3 => exact .inr (.inr ⟨x, s, m, rfl, h1, h3, .inl ⟨h2, rfl⟩⟩)
    | @dos x s m _ h1 h3 => exact .inr (.inr ⟨x ++ ['\r'], s, m, by simp, by simpa using h1, h3, .inr ⟨x, rfl, rfl⟩⟩)
  induction h with
  | nil =>
    intro l' b' h'
    rcases form h' with ⟨_, h1, h2⟩ | ⟨h1, _⟩ | ⟨y, t, m, e, _⟩
    · exact ⟨h1.symm, h2.symm⟩
    · exact absurd rfl h1
    · cases y <;> cases e
  | @last x hne hx =>
    intro l' b' h'
    rcases form h' with ⟨h1, _⟩ | ⟨_, _, h1, h2⟩ | ⟨y, t, m, e, _⟩
    · exact absurd h1 hne
    · exact ⟨h1.symm, h2.symm⟩
    · exact absurd (by rw [e]; simp) hx
  | @unix x s l b hx hr h1 ih =>
    intro l' b' h'
    rcases form h' with ⟨e, _⟩ | ⟨_, e, _⟩ | ⟨y, t, m, e, hy, h2, h3⟩
    · cases x <;> cases e
    · exact absurd (by simp) e
    · obtain ⟨e1, e2⟩ := first_newline hx hy e
      subst e1; subst e2
      obtain ⟨e3, e4⟩ := ih h2
      rcases h3 with ⟨_, e5⟩ | ⟨z, e5, _⟩
      · exact ⟨by rw [e5, e3], e4⟩
      · rw [e5] at hr; simp at hr
  | @dos x s l b hx h1 ih =>
    intro l' b' h'
    rcases form h' with ⟨e, _⟩ | ⟨_, e, _⟩ | ⟨y, t, m, e, hy, h2, h3⟩
    · cases x <;> cases e
    · exact absurd (by simp) e
    · have e' : (x ++ ['\r']) ++ '\n' :: s = y ++ '\n' :: t := by rw [← e]; simp
      obtain ⟨e1, e2⟩ := first_newline (by simpa using hx) hy e'
      subst e2
      obtain ⟨e3, e4⟩ := ih h2
      rcases h3 with ⟨e5, _⟩ | ⟨z, e5, e6⟩
      · rw [← e1] at e5; simp at e5
      · rw [← e1] at e5
        have := List.append_inj_left' e5 rfl
        exact ⟨by rw [e6, e3, this], e4⟩

/-- A concrete case for C235. -/
example : split (c!"a\r\n\nb\rc\n\r\nlast") [c!"old"] = ([c!"old", c!"a", [], c!"b\rc", [], c!"last"], false) ∧
    split (c!"a\n") [] = ([c!"a"], true) := by decide +kernel

/-! ### C236 -/

theorem sameStart_iff : ∀ {a b : Str}, a.length = b.length → Char.ofNat 0 ∉ b → (sameStart a b = true ↔ a = b)
  | [], [], _, _ => by simp [sameStart]
  | [], _ :: _, h, _ => by simp at h
  | _ :: _, [], h, _ => by simp at h
  | x :: a, y :: b, h, h0 => by
    have ih := sameStart_iff (a := a) (b := b) (by simpa using h) (fun hm => h0 (by simp [hm]))
    unfold sameStart
    by_cases e : x = y
    · subst e
      rw [if_pos rfl, if_neg (fun e => h0 (by simp [e]))]
      rw [ih]; simp
    · rw [if_neg e]; simp [e]

/-- C236 is false of the code: a negative offset reads the start of the file. -/
theorem C236_refuted : ¬ C236_statement := by
  intro h
  obtain ⟨a, b, _, e⟩ := (h (some (c!"PLY")) (c!"PL") (-1) (by decide)).1 (by decide)
  omega

/-- What holds of C236: offsets that are not negative.  Missing: negative offsets; the empty signature beyond the end of the file. -/
theorem C236_partial (content : Option Str) (sig : Str) (offset : Int) (h0 : Char.ofNat 0 ∉ sig) (hne : sig ≠ []) (ho : 0 ≤ offset) :
    fileHasSignature content (some sig) offset = true ↔ ∃ a b, content = some (a ++ sig ++ b) ∧ (a.length : Int) = offset := by
  obtain ⟨k, rfl⟩ : ∃ k : Nat, offset = k := ⟨offset.toNat, by omega⟩
  unfold fileHasSignature
  cases content with
  | none => simp
  | some bytes =>
    have hs : fseek (k : Int) = k := by unfold fseek; rw [if_neg (by omega)]; rfl
    simp only [hs]
    split
    · rename_i hl
      rw [sameStart_iff hl h0]
      constructor
      · intro e
        refine ⟨bytes.take k, (bytes.drop k).drop sig.length, ?_, ?_⟩
        · congr 1
          conv => lhs; rw [← List.take_append_drop k bytes, ← List.take_append_drop sig.length (bytes.drop k), e]
          simp
        · by_cases hk : k ≤ bytes.length
          · simp [hk]
          · rw [List.drop_eq_nil_of_le (by omega)] at e hl
            have : sig = [] := by simpa using e.symm
            exact absurd this hne
      · rintro ⟨a, b, e, ha⟩
        have ha : a.length = k := by omega
        rw [Option.some.inj e, ← ha]
        simp
    · rename_i hl
      constructor
      · intro h; cases h
      · rintro ⟨a, b, e, ha⟩
        have ha : a.length = k := by omega
        rw [Option.some.inj e, ← ha] at hl
        simp at hl

/-- A concrete case for C236. -/
example : fileHasSignature (some (c!"xxGIFyy")) (some (c!"GIF")) 2 = true ∧ fileHasSignature (some (c!"xxGI")) (some (c!"GIF")) 2 = false ∧
    fileHasSignature (some ['G', Char.ofNat 0, 'F']) (some (c!"GIF")) 0 = false := by decide +kernel

/-! ### C237 -/

theorem isText_iff {c : Char} : isText c = true ↔ Textual c ∨ c.toNat = 0x7F := by
  unfold isText Textual
  simp only [Bool.or_eq_true, Bool.and_eq_true, decide_eq_true_eq, beq_iff_eq]
  constructor
  · rintro (((⟨h1, h2⟩ | h) | h) | h)
    · by_cases h3 : c.toNat = 0x7F
      · exact .inr h3
      · exact .inl (.inl ⟨h1, by omega⟩)
    · exact .inl (.inr (.inl h))
    · exact .inl (.inr (.inr (.inl h)))
    · exact .inl (.inr (.inr (.inr h)))
  · rintro ((⟨h1, h2⟩ | h | h | h) | h)
    · exact .inl (.inl (.inl ⟨h1, by omega⟩))
    · exact .inl (.inl (.inr h))
    · exact .inl (.inr h)
    · exact .inr h
    · exact .inl (.inl (.inl ⟨by omega, by omega⟩))

theorem count_filter {s : Str} {k : Nat} (h7 : ∀ c ∈ s, c.toNat ≠ 0x7F) (h : Count (fun c => ¬ Textual c) s k) :
    k + (s.filter isText).length = s.length := by
  induction h with
  | nil => rfl
  | @yes c s n hc _ ih =>
    have h1 : isText c = false := by
      cases e : isText c with
      | false => rfl
      | true => exact absurd (isText_iff.1 e) (by rintro (h | h); exact hc h; exact h7 c (by simp) h)
    rw [List.filter_cons_of_neg (by simp [h1])]
    have := ih (fun c hc => h7 c (by simp [hc]))
    simp only [List.length_cons]; omega
  | @no c s n hc _ ih =>
    have h1 : isText c = true := isText_iff.2 (.inl (Classical.not_not.1 hc))
    rw [List.filter_cons_of_pos h1]
    have := ih (fun c hc => h7 c (by simp [hc]))
    simp only [List.length_cons]; omega

/-- C237 is false of the code: the byte 0x7F counts as text, and so does not make a file binary. -/
theorem C237_refuted : ¬ C237_statement := by
  intro h
  have h2 := (h [Char.ofNat 0x7F] 256 (1 / 20) 1 (by decide +kernel) (by decide) (.yes (by unfold Textual; decide) .nil)).1.2 (by decide +kernel)
  revert h2
  decide +kernel

/-- Also at the exact threshold the code says binary, the header text. -/
theorem C237_threshold : detectFileType false (some (c!"plain text")) 256 0 = .binary := by decide +kernel

/-- What holds of C237: no byte 0x7F, and the fraction is not exactly percent_bin.  Missing: these cases. -/
theorem C237_partial (bytes : Str) (length : Nat) (p : Rat) (k : Nat) (hp : 0 ≤ p) (hne : bytes.take length ≠ [])
    (h7 : ∀ c ∈ bytes.take length, c.toNat ≠ 0x7F) (hk : Count (fun c => ¬ Textual c) (bytes.take length) k)
    (hx : (k : Rat) ≠ p * ((bytes.take length).length : Rat)) :
    (detectFileType false (some bytes) length p = .binary ↔ (k : Rat) > p * ((bytes.take length).length : Rat)) ∧
    (detectFileType false (some bytes) length p = .text ↔ (k : Rat) ≤ p * ((bytes.take length).length : Rat)) := by
  have hcount := count_filter h7 hk
  have hlen : 0 < (bytes.take length).length := List.length_pos_iff.2 hne
  unfold detectFileType
  rw [if_neg (by exact Rat.not_lt.2 hp), if_neg (by simp)]
  simp only
  rw [if_neg (by omega)]
  have hk2 : (bytes.take length).length - ((bytes.take length).filter isText).length = k := by omega
  rw [hk2]
  generalize (bytes.take length).length = m at *
  have hm : (0 : Rat) < (m : Rat) := by exact_mod_cast hlen
  have hdiv : ((k : Rat) / (m : Rat) ≥ p) ↔ (k : Rat) > p * (m : Rat) := by
    constructor
    · intro h
      have h1 : p * (m : Rat) ≤ (k : Rat) := Rat.not_lt.1 fun h3 => Rat.not_lt.2 h ((Rat.div_lt_iff hm).2 h3)
      exact Rat.not_le.1 fun h2 => hx (Rat.le_antisymm h2 h1)
    · intro h
      exact Rat.not_lt.1 fun h3 => Rat.not_lt.2 (Rat.le_of_lt h) ((Rat.div_lt_iff hm).1 h3)
  by_cases hc : (k : Rat) / (m : Rat) ≥ p
  · rw [if_pos hc]
    have := hdiv.1 hc
    exact ⟨⟨fun _ => this, fun _ => rfl⟩, ⟨fun h => (by cases h), fun h => absurd this (Rat.not_lt.2 h)⟩⟩
  · rw [if_neg hc]
    have h1 : ¬ (k : Rat) > p * (m : Rat) := fun h => hc (hdiv.2 h)
    exact ⟨⟨fun h => (by cases h), fun h => absurd h h1⟩, ⟨fun _ => Rat.not_lt.1 h1, fun _ => rfl⟩⟩

/-- A concrete case for C237: one of four bytes is not textual. -/
example : detectFileType false (some ['a', 'b', Char.ofNat 1, '\n']) 256 (1 / 5) = .binary ∧ detectFileType false (some ['a', 'b', Char.ofNat 1, '\n']) 256 (1 / 3) = .text ∧
    detectFileType false (some ['a', 'b', Char.ofNat 1, '\n']) 2 (1 / 5) = .text := by decide +kernel

/-- Without a file, for a directory, an empty file or a negative fraction the type is unknown, and only then. -/
theorem C237_unknown (dir : Bool) (content : Option Str) (length : Nat) (p : Rat) :
    detectFileType dir content length p = .unknown ↔ p < 0 ∨ dir = true ∨ content = none ∨ content.map (fun b => b.take length) = some [] := by
  unfold detectFileType
  by_cases hp : p < 0
  · rw [if_pos hp]; simp [hp]
  · rw [if_neg hp]
    by_cases hd : dir = true
    · rw [if_pos hd]; simp [hd]
    · rw [if_neg hd]
      cases content with
      | none => simp
      | some b =>
        simp only
        by_cases hl : (b.take length).length = 0
        · rw [if_pos hl]
          simp only [Option.map_some]
          rw [List.length_eq_zero_iff.1 hl]
          simp
        · rw [if_neg hl]
          have hne : b.take length ≠ [] := fun e => hl (by rw [e]; rfl)
          split <;> simp only [hp, hd, Option.map_some, Option.some.injEq, hne, reduceCtorEq, or_self]

end Vital.Sys.Loc
