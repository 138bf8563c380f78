import Verif.Config.Num
/-
  Model of vital/types/timestamp.{h,cxx} and vital/types/timestamp_config.h; properties C38, C39, C69.
  Not modelled: pretty_print (ctime), set_time_seconds / get_time_seconds (floating point).
-/
namespace Vital.Timestamp
open Vital

-- models: vital/types/timestamp.h:196-203 (data members)
structure TS where
  validTime : Bool
  validFrame : Bool
  time : Int
  frame : Int
  domain : Int
deriving DecidableEq

-- models: vital/types/timestamp.cxx:41-47
def mk0 : TS := ⟨false, false, 0, 0, 0⟩
-- models: vital/types/timestamp.cxx:50-56
def mk2 (t f : Int) : TS := ⟨true, true, t, f, 0⟩
-- models: vital/types/timestamp.cxx:60-67 (set_time_usec)
def setTime (s : TS) (t : Int) : TS := { s with time := t, validTime := true }
-- models: vital/types/timestamp.cxx:82-89 (set_frame)
def setFrame (s : TS) (f : Int) : TS := { s with frame := f, validFrame := true }
-- models: vital/types/timestamp.cxx:93-100 (set_invalid)
def setInvalid (s : TS) : TS := { s with validTime := false, validFrame := false }
-- models: vital/types/timestamp.cxx:104-109 (set_time_domain_index)
def setDomain (s : TS) (d : Int) : TS := { s with domain := d }

-- models: vital/types/timestamp.cxx:121-144 (operator<)
def lt (a b : TS) : Bool :=
  if a.domain ≠ b.domain then false
  else if a.validTime && b.validTime then decide (a.time < b.time)
  else if a.validFrame && b.validFrame then decide (a.frame < b.frame)
  else false

-- models: vital/types/timestamp.cxx:147-168 (operator>)
def gt (a b : TS) : Bool :=
  if a.domain ≠ b.domain then false
  else if a.validTime && b.validTime then decide (a.time > b.time)
  else if a.validFrame && b.validFrame then decide (a.frame > b.frame)
  else false

-- models: vital/types/timestamp.cxx:171-191 (operator==)
def eq (a b : TS) : Bool :=
  if a.domain ≠ b.domain then false
  else if a.validTime && b.validTime then decide (a.time = b.time)
  else if a.validFrame && b.validFrame then decide (a.frame = b.frame)
  else false

-- models: vital/types/timestamp.cxx:194-214 (operator!=)
def ne (a b : TS) : Bool :=
  if a.domain ≠ b.domain then false
  else if a.validTime && b.validTime then decide (a.time ≠ b.time)
  else if a.validFrame && b.validFrame then decide (a.frame ≠ b.frame)
  else false

/-! ### Specification -/

/-- The quantity on which two timestamps are compared: microseconds when both know their time, otherwise
    frame numbers when both know their frame; nothing in different time domains. -/
inductive Common (a b : TS) : Int → Int → Prop where
  | byTime : a.domain = b.domain → a.validTime = true → b.validTime = true → Common a b a.time b.time
  | byFrame : a.domain = b.domain → ¬ (a.validTime = true ∧ b.validTime = true) →
      a.validFrame = true → b.validFrame = true → Common a b a.frame b.frame

/-! ### C38 -/

/-- Every operator compares the common quantity, and is false when there is none. -/
theorem C38_operators (a b : TS) :
    (∀ x y, Common a b x y → (lt a b = true ↔ x < y) ∧ (gt a b = true ↔ y < x) ∧ (eq a b = true ↔ x = y) ∧
      (ne a b = true ↔ x ≠ y)) ∧
    ((¬ ∃ x y, Common a b x y) → lt a b = false ∧ gt a b = false ∧ eq a b = false ∧ ne a b = false) := by
  constructor
  · intro x y h
    cases h with
    | byTime hd ht1 ht2 => simp [lt, gt, eq, ne, hd, ht1, ht2]
    | byFrame hd hnt hf1 hf2 =>
      have : (a.validTime && b.validTime) = false := by
        cases h1 : a.validTime <;> cases h2 : b.validTime <;> simp_all
      simp [lt, gt, eq, ne, hd, this, hf1, hf2]
  · intro h
    by_cases hd : a.domain = b.domain
    · have h1 : (a.validTime && b.validTime) = false := by
        cases h1 : a.validTime <;> cases h2 : b.validTime <;> try rfl
        exact absurd ⟨_, _, Common.byTime hd h1 h2⟩ h
      have h2 : (a.validFrame && b.validFrame) = false := by
        cases h3 : a.validFrame <;> cases h4 : b.validFrame <;> try rfl
        refine absurd ⟨_, _, Common.byFrame hd ?_ h3 h4⟩ h
        rintro ⟨h5, h6⟩
        simp [h5, h6] at h1
      simp [lt, gt, eq, ne, hd, h1, h2]
    · simp [lt, gt, eq, ne, hd]

/-- Coherence: at most one of `<`, `==`, `>` holds, `a < b` is `b > a`, `==` and `!=` are symmetric and
    exclude each other, and exactly one of the three holds as soon as one of the four operators is true. -/
theorem C38_coherent (a b : TS) :
    (lt a b = gt b a) ∧ (eq a b = eq b a) ∧ (ne a b = ne b a) ∧
    ¬ (lt a b = true ∧ eq a b = true) ∧ ¬ (lt a b = true ∧ gt a b = true) ∧ ¬ (gt a b = true ∧ eq a b = true) ∧
    ¬ (eq a b = true ∧ ne a b = true) ∧ (ne a b = true ↔ lt a b = true ∨ gt a b = true) ∧
    (lt a a = false) := by
  have hc : ∀ x y : Int, decide (x = y) = decide (y = x) := fun x y => by simp [eq_comm]
  refine ⟨?_, ?_, ?_, ?_, ?_, ?_, ?_, ?_, ?_⟩ <;>
    simp only [lt, gt, eq, ne, Bool.and_comm b.validTime, Bool.and_comm b.validFrame] <;>
    (repeat' split) <;> simp_all <;> omega

example : Common (mk2 5 1) (mk2 7 0) 5 7 ∧ lt (mk2 5 1) (mk2 7 0) = true ∧
    Common (setFrame mk0 3) (mk2 7 0) 3 0 ∧ ¬ ∃ x y, Common (setTime mk0 3) (setFrame mk0 3) x y := by
  refine ⟨.byTime rfl rfl rfl, rfl, .byFrame rfl (by decide) rfl rfl, ?_⟩
  rintro ⟨x, y, h⟩
  cases h with
  | byTime _ _ h => cases h
  | byFrame _ _ h => cases h

/-! ### C39 -/

def C39_statement : Prop := ∀ a b c : TS, lt a b = true → lt b c = true → lt a c = true

/-- C39 is false of the code: comparing through a timestamp that knows only its frame mixes the two
    orders. -/
theorem C39_refuted : ¬ C39_statement := by
  intro h
  exact absurd (h (mk2 5 1) (setFrame mk0 2) (mk2 1 3) (by decide) (by decide)) (by decide)

/-- What holds: transitivity when the three timestamps agree on whether they know their time (and then,
    more generally, whenever both comparisons use the same quantity). Missing: mixed timestamps. -/
theorem C39_partial (a b c : TS) (h1 : a.validTime = b.validTime) (h2 : b.validTime = c.validTime)
    (hab : lt a b = true) (hbc : lt b c = true) : lt a c = true := by
  obtain ⟨vt, vf, t, f, d⟩ := a
  obtain ⟨vt', vf', t', f', d'⟩ := b
  obtain ⟨vt'', vf'', t'', f'', d''⟩ := c
  simp only at h1 h2
  subst h1; subst h2
  simp only [lt] at *
  cases vt <;> cases vf <;> cases vf' <;> cases vf'' <;> simp at * <;> omega

example : lt (setFrame mk0 1) (setFrame mk0 2) = true ∧ lt (setFrame mk0 2) (setFrame mk0 3) = true := by decide

/-! ### C69: timestamps in config blocks -/

def int64Min : Int := -9223372036854775808
def int64Max : Int := 9223372036854775807

-- models: vital/types/timestamp_config.h:93-101 (config_block_set_value_cast<timestamp>)
def text (s : TS) : Str := intStr s.time ++ [' '] ++ intStr s.frame

/-- `stream >> x` for an `int64_t`.  The stream is `some rest` while good, `none` once eof or fail is set;
    the first component is what is stored in `x`, `none` when `x` keeps its (indeterminate) value because
    the stream's sentry failed.  A failed conversion stores 0, or the nearest bound when out of range. -/
-- models: libstdc++ operator>>(int64_t&) as used in vital/types/timestamp_config.h:64,68
def extract (st : Option Str) : Option Int × Option Str :=
  match st with
  | none => (none, none)
  | some s =>
    if ltrim s = [] then (none, none)
    else match readInt int64Min int64Max s with
      | some (n, rest) => (some n, if rest = [] then none else some rest)
      | none =>
        let sg := splitSign (ltrim s)
        if sg.2.takeWhile isDigit = [] then (some 0, none)
        else (some (if sg.1 then int64Min else int64Max), none)

-- models: vital/types/timestamp_config.h:55-74 (config_block_get_value_cast<timestamp>); `none` when an
-- indeterminate local variable is used (undefined behaviour)
def cast (v : Str) : Option TS :=
  let r1 := extract (some v)
  let r2 := extract r1.2
  match r1.1, r2.1 with
  | some t, some f => some (setFrame (setTime mk0 t) f)
  | _, _ => none

/-- Timestamps that keep their meaning as "time frame" text. -/
def Plain (s : TS) : Prop := s.validTime = true ∧ s.validFrame = true ∧ s.domain = 0 ∧
  int64Min ≤ s.time ∧ s.time ≤ int64Max ∧ int64Min ≤ s.frame ∧ s.frame ≤ int64Max

theorem text_trim (s : TS) : trim (text s) = text s := by
  apply trim_eq_self
  have ne : ∀ n : Int, intStr n ≠ [] := by
    intro n; unfold intStr; split
    · simp
    · exact natStr_ne_nil _
  constructor
  · intro c hc
    unfold text at hc
    cases hi : intStr s.time with
    | nil => exact absurd hi (ne _)
    | cons x l =>
      rw [hi] at hc; simp at hc; subst hc
      exact intStr_no_space s.time x (by rw [hi]; simp)
  · intro c hc
    unfold text at hc
    have hn : ∃ z, (intStr s.frame).getLast? = some z := by
      cases hl : (intStr s.frame).getLast? with
      | none => exact absurd (List.getLast?_eq_none_iff.1 hl) (ne _)
      | some z => exact ⟨z, rfl⟩
    obtain ⟨z, hz⟩ := hn
    rw [List.getLast?_append, hz] at hc
    simp at hc; subst hc
    exact intStr_no_space _ z (List.mem_of_mem_getLast? hz)

theorem intStr_ne_nil (n : Int) : intStr n ≠ [] := by
  unfold intStr; split
  · simp
  · exact natStr_ne_nil _

theorem ltrim_no_space {s rest : Str} (h : ∀ c ∈ s, isSpace c = false) (hne : s ≠ []) :
    ltrim (s ++ rest) = s ++ rest := by
  apply ltrim_eq_self
  intro c hc
  cases s with
  | nil => exact absurd rfl hne
  | cons x l => simp at hc; subst hc; exact h x (by simp)

theorem cast_text {s : TS} (hp : Plain s) : cast (text s) = some s := by
  obtain ⟨h1, h2, h3, h4, h5, h6, h7⟩ := hp
  have e1 : readInt int64Min int64Max (text s) = some (s.time, ' ' :: intStr s.frame) := by
    have := readInt_intStr int64Min int64Max s.time h4 h5 (' ' :: intStr s.frame)
      (by intro c hc; simp at hc; subst hc; decide) [] (by simp)
    simpa [text] using this
  have e2 : readInt int64Min int64Max (' ' :: intStr s.frame) = some (s.frame, []) := by
    have := readInt_intStr int64Min int64Max s.frame h6 h7 [] (by simp) [' '] (by simp [isSpace])
    simpa using this
  have l1 : ltrim (text s) ≠ [] := by
    unfold text
    rw [List.append_assoc, ltrim_no_space (intStr_no_space _) (intStr_ne_nil _)]
    simp
  have l2 : ltrim (' ' :: intStr s.frame) ≠ [] := by
    have : ltrim (' ' :: intStr s.frame) = ltrim (intStr s.frame ++ []) := by simp [ltrim, isSpace]
    rw [this, ltrim_no_space (intStr_no_space _) (intStr_ne_nil _)]
    simpa using intStr_ne_nil _
  unfold cast
  simp only [extract, e1, l1, e2, l2, ↓reduceIte, reduceCtorEq]
  cases s
  simp_all [setFrame, setTime, mk0]

/-- Full property: any timestamp stored in a config block reads back the same. -/
def C69_statement : Prop := ∀ s : TS, int64Min ≤ s.time → s.time ≤ int64Max → int64Min ≤ s.frame →
  s.frame ≤ int64Max → cast (trim (text s)) = some s

/-- C69 is false of the code: an invalid timestamp reads back as valid, and the domain is lost. -/
theorem C69_refuted : ¬ C69_statement ∧
    (∀ d, d ≠ 0 → cast (trim (text (setDomain (mk2 1 2) d))) ≠ some (setDomain (mk2 1 2) d)) := by
  constructor
  · intro h
    exact absurd (h mk0 (by decide) (by decide) (by decide) (by decide)) (by decide +kernel)
  · intro d hd
    have : text (setDomain (mk2 1 2) d) = text (mk2 1 2) := rfl
    rw [this, text_trim, cast_text (by unfold Plain; decide)]
    intro he
    have := congrArg TS.domain (Option.some.inj he)
    exact hd this.symm

/-- A timestamp with valid time and frame in the default domain survives `set_value` / `get_value`. -/
theorem C69_roundtrip_partial {h h' : Config.Heap} (hr : Config.Reachable h) {b : Nat} {k d : Str} {s : TS}
    (hp : Plain s) (hs : Config.setValue h b k (text s) d = (h', .ok ())) :
    Config.getValueAs cast h' b k = .ok s := by
  have w := hr.wf
  obtain ⟨r, pre, rb, hv, hrb, hp', hro, rfl⟩ := Config.set_ok w hs
  have pr : Config.Prim h (h.set r (rb.put (pre ++ k) (text s) d)) := .put hrb hp' hro
  rw [Config.getAs_view _ (Config.wf_prim pr w) (hv.prims (.one pr)) (Config.set_same hrb), Config.put_find, if_pos rfl]
  simp only [text_trim, cast_text hp]

/-- Which texts are safe: the conversion uses an indeterminate value exactly when the text does not start
    with an in-range integer followed by further non-blank text. -/
theorem C69_undefined_iff (v : Str) :
    cast v = none ↔ ¬ ∃ n rest, readInt int64Min int64Max v = some (n, rest) ∧ ∃ c ∈ rest, isSpace c = false := by
  have blank : ∀ s : Str, ltrim s = [] ↔ ¬ ∃ c ∈ s, isSpace c = false := by
    intro s
    unfold ltrim
    induction s with
    | nil => simp
    | cons a s ih =>
      rw [List.dropWhile_cons]
      cases h : isSpace a <;> simp [h] at * 
      exact ih
  unfold cast
  by_cases h0 : ltrim v = []
  · simp only [extract, h0, ↓reduceIte, true_iff]
    rintro ⟨n, rest, h, _⟩
    unfold readInt at h
    rw [h0] at h
    simp [splitSign] at h
  · cases hr : readInt int64Min int64Max v with
    | none =>
      simp only [extract, h0, ↓reduceIte, hr]
      by_cases hd : (splitSign (ltrim v)).2.takeWhile isDigit = [] <;> simp [hd]
    | some p =>
      obtain ⟨n, rest⟩ := p
      simp only [extract, h0, ↓reduceIte, hr]
      by_cases hre : rest = []
      · simp [hre]
      · simp only [hre, ↓reduceIte]
        by_cases hb : ltrim rest = []
        · simp only [hb, ↓reduceIte, true_iff]
          rintro ⟨n', rest', he, hc⟩
          cases he
          exact (blank rest).1 hb hc
        · have hc : ∃ c ∈ rest, isSpace c = false := Classical.byContradiction fun hn => hb ((blank rest).2 hn)
          simp only [hb, ↓reduceIte]
          constructor
          · intro hx
            exfalso
            revert hx
            cases readInt int64Min int64Max rest with
            | some q => simp
            | none => by_cases hd : (splitSign (ltrim rest)).2.takeWhile isDigit = [] <;> simp [hd]
          · intro hx; exact absurd ⟨n, rest, rfl, hc⟩ hx

example : cast (c!"5") = none ∧ cast (c!"abc") = none ∧ cast (c!"5 x") = some (mk2 5 0) ∧
    cast (c!"-12 7") = some (mk2 (-12) 7) ∧ Plain (mk2 (-12) 7) ∧
    (Config.setValue Config.demo 2 (c!"n") (text (mk2 (-12) 7)) []).2 = .ok () := by
  refine ⟨by decide +kernel, by decide +kernel, by decide +kernel, by decide +kernel, ?_, by decide +kernel⟩
  unfold Plain; decide

end Vital.Timestamp
