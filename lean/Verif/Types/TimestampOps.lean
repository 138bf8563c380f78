import Verif.Types.Timestamp
import Verif.Track.Props
import Mathlib.Data.List.Induction
/-
  Model of the setters and of pretty_print of vital/types/timestamp.{h,cxx}; property C181 (and C64: overflow).
  Not modelled: set_time_seconds / get_time_seconds (floating point): the whole seconds that pretty_print computes are a parameter, and so is ctime.
-/
namespace Vital.Timestamp
open Vital

/-- The setters. -/
inductive Call
  | time (t : Int)
  | frame (f : Int)
  | invalid
  | domain (d : Int)

-- models: vital/types/timestamp.cxx:60-109
def Call.run : Call → TS → TS
  | .time t, s => setTime s t
  | .frame f, s => setFrame s f
  | .invalid, s => setInvalid s
  | .domain d, s => setDomain s d

-- models: vital/types/timestamp.h:92 (is_valid)
def isValid (s : TS) : Bool := s.validTime && s.validFrame

/-- The calls made one after the other. -/
def runAll (s : TS) : List Call → TS
  | [] => s
  | c :: l => runAll (c.run s) l

/-- Specification: `x` was set by the last of the calls that set or invalidate this field. -/
def LastSet (sets : Int → Call) (l : List Call) (x : Int) : Prop :=
  ∃ pre post, l = pre ++ sets x :: post ∧ Call.invalid ∉ post ∧ ∀ y, sets y ∉ post

theorem runAll_append (s : TS) (a b : List Call) : runAll s (a ++ b) = runAll (runAll s a) b := by
  induction a generalizing s with
  | nil => rfl
  | cons c a ih => exact ih _

theorem lastSet_snoc {sets : Int → Call} (hi : Function.Injective sets) {l : List Call} {c : Call} {x : Int} :
    LastSet sets (l ++ [c]) x ↔ c = sets x ∨ (c ≠ .invalid ∧ (∀ y, c ≠ sets y) ∧ LastSet sets l x) := by
  constructor
  · rintro ⟨pre, post, he, h1, h2⟩
    rcases List.eq_nil_or_concat post with rfl | ⟨q, d, rfl⟩
    · left
      have := congrArg List.getLast? he
      simpa using this
    · right
      rw [List.concat_eq_append] at *
      rw [← List.cons_append, ← List.append_assoc] at he
      obtain ⟨e1, e2⟩ := List.append_inj' he rfl
      cases e2
      refine ⟨fun h => h1 (by simp [h]), fun y h => h2 y (by simp [h]), pre, q, e1, fun h => h1 (by simp [h]), fun y h => h2 y (by simp [h])⟩
  · rintro (rfl | ⟨h1, h2, pre, post, rfl, h3, h4⟩)
    · exact ⟨l, [], rfl, by simp, by simp⟩
    · refine ⟨pre, post ++ [c], by simp, ?_, ?_⟩
      · rw [List.mem_append]; rintro (h | h)
        · exact h3 h
        · exact h1 (List.mem_singleton.1 h).symm
      · intro y; rw [List.mem_append]; rintro (h | h)
        · exact h4 y h
        · exact h2 y (List.mem_singleton.1 h).symm

/-- C181. Whatever setters were called on a new timestamp, it has a valid time (frame) exactly if the time (frame) was set since the last set_invalid, and then
the value is the one set last; it is valid exactly if it has both; its time domain is the one set last, 0 at first. -/
theorem C181_setters (l : List Call) :
    ((runAll mk0 l).validTime = true ↔ ∃ t, LastSet .time l t) ∧ (∀ t, LastSet .time l t → (runAll mk0 l).time = t) ∧
    ((runAll mk0 l).validFrame = true ↔ ∃ f, LastSet .frame l f) ∧ (∀ f, LastSet .frame l f → (runAll mk0 l).frame = f) ∧
    (isValid (runAll mk0 l) = true ↔ (∃ t, LastSet .time l t) ∧ ∃ f, LastSet .frame l f) ∧
    (runAll mk0 l).domain = (l.filterMap fun | .domain d => some d | _ => none).getLast?.getD 0 := by
  have ht : Function.Injective Call.time := by intro a b h; cases h; rfl
  have hf : Function.Injective Call.frame := by intro a b h; cases h; rfl
  have key : ((runAll mk0 l).validTime = true ↔ ∃ t, LastSet .time l t) ∧ (∀ t, LastSet .time l t → (runAll mk0 l).time = t) ∧
    ((runAll mk0 l).validFrame = true ↔ ∃ f, LastSet .frame l f) ∧ (∀ f, LastSet .frame l f → (runAll mk0 l).frame = f) ∧
    (runAll mk0 l).domain = (l.filterMap fun | .domain d => some d | _ => none).getLast?.getD 0 := by
    induction l using List.reverseRecOn with
    | nil =>
      have no : ∀ (g : Int → Call) x, ¬ LastSet g [] x := by
        rintro g x ⟨pre, post, h, _⟩
        simp at h
      simp [runAll, mk0, no]
    | append_singleton l c ih =>
      obtain ⟨i1, i2, i3, i4, i5⟩ := ih
      rw [runAll_append]
      simp only [lastSet_snoc ht, lastSet_snoc hf]
      cases c with
      | time t =>
        refine ⟨⟨fun _ => ⟨t, .inl rfl⟩, fun _ => rfl⟩, ?_, ?_, ?_, ?_⟩
        · rintro x (h | h)
          · cases h; rfl
          · exact absurd rfl (h.2.1 t)
        · show (runAll mk0 l).validFrame = true ↔ _
          rw [i3]; simp
        · rintro f (h | h)
          · cases h
          · exact i4 f h.2.2
        · show (runAll mk0 l).domain = _
          rw [i5]; simp
      | frame f =>
        refine ⟨?_, ?_, ⟨fun _ => ⟨f, .inl rfl⟩, fun _ => rfl⟩, ?_, ?_⟩
        · show (runAll mk0 l).validTime = true ↔ _
          rw [i1]; simp
        · rintro f (h | h)
          · cases h
          · exact i2 f h.2.2
        · rintro x (h | h)
          · cases h; rfl
          · exact absurd rfl (h.2.1 f)
        · show (runAll mk0 l).domain = _
          rw [i5]; simp
      | invalid =>
        refine ⟨⟨fun h => (by cases h), ?_⟩, ?_, ⟨fun h => (by cases h), ?_⟩, ?_, ?_⟩
        · rintro ⟨t, h | h⟩
          · cases h
          · exact absurd rfl h.1
        · rintro t (h | h)
          · cases h
          · exact absurd rfl h.1
        · rintro ⟨t, h | h⟩
          · cases h
          · exact absurd rfl h.1
        · rintro t (h | h)
          · cases h
          · exact absurd rfl h.1
        · show (runAll mk0 l).domain = _
          rw [i5]; simp
      | domain d =>
        refine ⟨?_, ?_, ?_, ?_, ?_⟩
        · show (runAll mk0 l).validTime = true ↔ _
          rw [i1]; simp
        · rintro f (h | h)
          · cases h
          · exact i2 f h.2.2
        · show (runAll mk0 l).validFrame = true ↔ _
          rw [i3]; simp
        · rintro f (h | h)
          · cases h
          · exact i4 f h.2.2
        · show d = _
          simp
  refine ⟨key.1, key.2.1, key.2.2.1, key.2.2.2.1, ?_, key.2.2.2.2⟩
  rw [← key.1, ← key.2.2.1]
  simp [isValid]

example : LastSet .time [.invalid, .time 4, .time 5, .frame 7, .domain 2] 5 := ⟨[.invalid, .time 4], [.frame 7, .domain 2], rfl, by simp, by simp⟩
example : runAll mk0 [.invalid, .time 4, .time 5, .frame 7, .domain 2] = ⟨true, true, 5, 7, 2⟩ := rfl

/-! ### pretty_print -/

-- models: vital/types/timestamp.cxx:219-270 (pretty_print); `secs`: the whole seconds of a number of micro-seconds; `ct`: ctime, `none` for a null pointer.
-- The text of ctime is copied with `strncpy` into 128 characters and its last character (the newline) is removed: `none` if it is empty or does not fit
-- (characters outside of the buffer would be accessed).
def pretty (secs : Int → Int) (ct : Int → Option Str) (s : TS) : Option Str :=
  let f := if s.validFrame then intStr s.frame else c!"<inv>"
  let t : Option Str :=
    if s.validTime then
      match ct (secs s.time) with
      | some p => if p = [] ∨ 128 ≤ p.length then none else some (intStr s.time ++ c!" (" ++ p.dropLast ++ c!")")
      | none => some (c!" (time " ++ intStr (secs s.time) ++ c!" out of bounds?)")
    else some (c!"<inv>")
  t.map fun t => c!"ts(f: " ++ f ++ c!", t: " ++ t ++ c!", d: " ++ intStr s.domain ++ c!")"

/-- What ctime gives: a line of less than 128 characters (it is always one of 25, as long as the year has four digits). -/
def CtimeOk (ct : Int → Option Str) : Prop := ∀ n p, ct n = some p → p ≠ [] ∧ p.length < 128

theorem intStr_chars (n : Int) : ∀ c ∈ intStr n, isDigit c = true ∨ c = '-' := by
  unfold intStr
  split
  · intro c hc
    rw [List.mem_cons] at hc
    rcases hc with h | h
    · exact .inr h
    · exact .inl (natStr_digits _ c h)
  · intro c hc; exact .inl (natStr_digits _ c hc)

theorem intStr_inj {a b : Int} (h : intStr a = intStr b) : a = b := by
  have e1 := readInt_intStr (min a b) (max a b) a (by omega) (by omega) [] (by simp) [] (by simp)
  have e2 := readInt_intStr (min a b) (max a b) b (by omega) (by omega) [] (by simp) [] (by simp)
  rw [h] at e1
  rw [e1] at e2
  simpa using e2

/-- Two texts of the same start, each followed by a character it does not contain. -/
theorem split_at {c : Char} {a b x y : Str} (ha : c ∉ a) (hb : c ∉ b) (h : a ++ c :: x = b ++ c :: y) : a = b ∧ x = y := by
  induction a generalizing b with
  | nil =>
    cases b with
    | nil => exact ⟨rfl, by simpa using h⟩
    | cons d b =>
      simp only [List.nil_append, List.cons_append, List.cons.injEq] at h
      exact absurd (by simp [h.1]) hb
  | cons d a ih =>
    cases b with
    | nil =>
      simp only [List.nil_append, List.cons_append, List.cons.injEq] at h
      exact absurd (by simp [h.1]) ha
    | cons e b =>
      simp only [List.cons_append, List.cons.injEq] at h
      obtain ⟨rfl, h⟩ := h
      obtain ⟨rfl, rfl⟩ := ih (fun hm => ha (by simp [hm])) (fun hm => hb (by simp [hm])) h
      exact ⟨rfl, rfl⟩

theorem notin_int {c : Char} (h : isDigit c = false) (h' : c ≠ '-') (n : Int) : c ∉ intStr n := by
  intro hm
  rcases intStr_chars n c hm with h1 | h1
  · rw [h] at h1; cases h1
  · exact h' h1

theorem int_ne_inv (n : Int) (r : Str) : intStr n ++ r ≠ c!"<inv>" ++ r := by
  intro h
  have := List.append_cancel_right h
  have hm : '<' ∈ intStr n := by rw [this]; decide
  exact notin_int (by decide) (by decide) n hm

/-- C181. pretty_print is defined, and two timestamps whose times are within the range of ctime print the same text only if they have the same validity, frame,
time and domain (where valid). -/
theorem C181_pretty (secs : Int → Int) (ct : Int → Option Str) (hct : CtimeOk ct) (a b : TS) :
    (∃ p, pretty secs ct a = some p) ∧
    ((a.validTime = true → ct (secs a.time) ≠ none) → (b.validTime = true → ct (secs b.time) ≠ none) →
      (pretty secs ct a = pretty secs ct b ↔
        a.validTime = b.validTime ∧ a.validFrame = b.validFrame ∧ a.domain = b.domain ∧ (a.validTime = true → a.time = b.time) ∧
          (a.validFrame = true → a.frame = b.frame))) := by
  let F : TS → Str := fun s => if s.validFrame then intStr s.frame else c!"<inv>"
  have hshape : ∀ s : TS, (s.validTime = true → ct (secs s.time) ≠ none) → ∃ T : Str,
      pretty secs ct s = some (c!"ts(f: " ++ F s ++ c!", t: " ++ T ++ c!", d: " ++ intStr s.domain ++ c!")") ∧
      ((s.validTime = true ∧ ∃ p, ct (secs s.time) = some p ∧ T = intStr s.time ++ c!" (" ++ p.dropLast ++ c!")") ∨ (s.validTime = false ∧ T = c!"<inv>")) := by
    intro s hs
    unfold pretty
    by_cases hv : s.validTime = true
    · match hc : ct (secs s.time) with
      | none => exact absurd hc (hs hv)
      | some p =>
        obtain ⟨h1, h2⟩ := hct _ _ hc
        have : ¬ (p = [] ∨ 128 ≤ p.length) := by rintro (h | h); exact h1 h; omega
        exact ⟨_, by simp only [hv, if_true, this, if_false, Option.map_some]; rfl, .inl ⟨hv, p, rfl, rfl⟩⟩
    · have hv : s.validTime = false := by simpa using hv
      exact ⟨_, by simp only [hv, Bool.false_eq_true, if_false, Option.map_some]; rfl, .inr ⟨hv, rfl⟩⟩
  constructor
  · by_cases h : a.validTime = true → ct (secs a.time) ≠ none
    · obtain ⟨T, h, _⟩ := hshape a h
      exact ⟨_, h⟩
    · rw [Classical.not_imp, Classical.not_not] at h
      unfold pretty
      simp only [h.1, h.2, if_true, Option.map_some]
      exact ⟨_, rfl⟩
  · intro ha hb
    constructor
    · obtain ⟨Ta, e1, h1⟩ := hshape a ha
      obtain ⟨Tb, e2, h2⟩ := hshape b hb
      intro h
      rw [e1, e2, Option.some.injEq] at h
      have hF : ∀ s : TS, ',' ∉ F s := by
        intro s
        show ',' ∉ if s.validFrame then intStr s.frame else c!"<inv>"
        split
        · exact notin_int (by decide) (by decide) _
        · decide
      simp only [List.append_assoc, List.cons_append, List.nil_append, List.cons.injEq, true_and] at h
      obtain ⟨hf, h⟩ := split_at (hF a) (hF b) h
      simp only [List.cons.injEq, true_and] at h
      have hframe : a.validFrame = b.validFrame ∧ (a.validFrame = true → a.frame = b.frame) := by
        change (if a.validFrame then intStr a.frame else c!"<inv>") = (if b.validFrame then intStr b.frame else c!"<inv>") at hf
        cases h3 : a.validFrame <;> cases h4 : b.validFrame <;> simp only [h3, h4, if_true, if_false, Bool.false_eq_true] at hf
        · simp
        · exact absurd (by rw [hf] : intStr b.frame ++ [] = c!"<inv>" ++ []) (int_ne_inv _ _)
        · exact absurd (by rw [hf] : intStr a.frame ++ [] = c!"<inv>" ++ []) (int_ne_inv _ _)
        · simpa using intStr_inj hf
      have hd : ∀ (d d' : Int), intStr d ++ c!")" = intStr d' ++ c!")" → d = d' := by
        intro d d' h
        exact intStr_inj (List.append_cancel_right h)
      have mixed : ∀ (n : Int) (x y : Str), intStr n ++ x ≠ '<' :: y := by
        intro n x y h
        cases hn : intStr n with
        | nil => exact absurd hn (intStr_ne_nil n)
        | cons c r =>
          rw [hn] at h
          simp only [List.cons_append, List.cons.injEq] at h
          exact notin_int (c := '<') (by decide) (by decide) n (by rw [hn, h.1]; simp)
      rcases h1 with ⟨va, pa, ca, rfl⟩ | ⟨va, rfl⟩ <;> rcases h2 with ⟨vb, pb, cb, rfl⟩ | ⟨vb, rfl⟩
      · simp only [List.append_assoc, List.cons_append, List.nil_append] at h
        obtain ⟨ht, h⟩ := split_at (c := ' ') (notin_int (by decide) (by decide) _) (notin_int (by decide) (by decide) _) h
        have ht := intStr_inj ht
        rw [ht, cb] at ca
        cases ca
        simp only [List.cons.injEq, true_and] at h
        have h := List.append_cancel_left h
        simp only [List.cons.injEq, true_and] at h
        exact ⟨by rw [va, vb], hframe.1, hd _ _ h, fun _ => ht, hframe.2⟩
      · simp only [List.append_assoc, List.cons_append, List.nil_append] at h
        exact absurd h (mixed _ _ _)
      · simp only [List.append_assoc, List.cons_append, List.nil_append] at h
        exact absurd h.symm (mixed _ _ _)
      · simp only [List.cons_append, List.nil_append, List.cons.injEq, true_and] at h
        refine ⟨by rw [va, vb], hframe.1, hd _ _ h, fun h => ?_, hframe.2⟩
        rw [va] at h; cases h
    · rintro ⟨h1, h2, h3, h4, h5⟩
      unfold pretty
      rw [← h1, ← h2, ← h3]
      by_cases hv : a.validTime = true <;> by_cases hw : a.validFrame = true
      · rw [h4 hv, h5 hw]
      · rw [h4 hv]; simp only [hw, if_false, Bool.false_eq_true]
      · rw [h5 hw]; simp only [hv, if_false, Bool.false_eq_true]
      · simp only [hv, hw, if_false, Bool.false_eq_true]

/-- C181: outside of the range of ctime the micro-seconds are not printed, and timestamps that differ print the same. -/
theorem C181_range (secs : Int → Int) (ct : Int → Option Str) (t t' : Int) (h : secs t = secs t') (hn : ct (secs t) = none) (f : Int) :
    pretty secs ct (mk2 t f) = pretty secs ct (mk2 t' f) := by
  rw [h] at hn
  simp only [pretty, mk2, h, hn]

example : CtimeOk (fun _ => some (c!"Thu Jan  1 00:00:00 1970\n")) := by
  intro n p h; cases h; exact ⟨by decide, by decide⟩
example : pretty (fun n => n / 1000000) (fun _ => some (c!"Thu Jan  1 00:00:01 1970\n")) (mk2 1500000 7) =
    some (c!"ts(f: 7, t: 1500000 (Thu Jan  1 00:00:01 1970), d: 0)") := by decide +kernel

end Vital.Timestamp

namespace Vital.Track

/-- C64: where the arithmetic of the offset overflows, none of the four selections has a result. -/
theorem C64_overflow {ts : TrackSet F D} {offset : Int} (h1 : setLastFrame ts ≤ int64Max) (h2 : int64Min ≤ offset) :
    (newTracks ts offset = none ↔ offset < 0 ∧ (setLastFrame ts = int64Max ∨ offset = int64Min)) ∧
    (terminatedTracks ts offset = none ↔ newTracks ts offset = none) ∧ (activeTracks ts offset = none ↔ newTracks ts offset = none) ∧
    (inactiveTracks ts offset = none ↔ newTracks ts offset = none) := by
  have e : offsetToFrame ts offset = none ↔ offset < 0 ∧ (setLastFrame ts = int64Max ∨ offset = int64Min) := by
    unfold offsetToFrame
    split
    · simp; omega
    · split
      · simp; omega
      · simp only
        split <;> simp <;> omega
  rw [← e]
  unfold newTracks terminatedTracks activeTracks inactiveTracks
  cases offsetToFrame ts offset <;> simp

end Vital.Track
