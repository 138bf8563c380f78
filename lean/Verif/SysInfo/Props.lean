import Verif.SysInfo.Spec
import Verif.Basic.Stream
/-
  Proofs about the queries of the machine: C217 - C222.
-/
namespace Vital.SysInfo
open Vital

/-! ### Searching -/

theorem starts_prefix {s w : Str} : startsWith s w = true ↔ w <+: s := by
  rw [startsWith_iff]
  constructor
  · rintro ⟨t, rfl⟩; exact List.prefix_append _ _
  · rintro ⟨t, rfl⟩; exact ⟨t, rfl⟩

theorem split_none {w : Str} : ∀ {s : Str}, split w s = none ↔ ¬ w <:+: s
  | [] => by
    unfold split
    by_cases h : w = []
    · simp [h]
    · simp [h]
  | c :: s => by
    unfold split
    by_cases h : startsWith (c :: s) w = true
    · rw [if_pos h]
      simp only [reduceCtorEq, false_iff]
      exact fun hn => hn (starts_prefix.1 h).isInfix
    · rw [if_neg h, Option.map_eq_none_iff, split_none, List.infix_cons_iff, ← starts_prefix]
      simp [h]

theorem split_some {w : Str} : ∀ {s a m : Str}, split w s = some (a, m) → s = a ++ m ∧ w <+: m
  | [], a, m, h => by
    unfold split at h
    split at h
    · rename_i hw; cases h; simp [hw]
    · cases h
  | c :: s, a, m, h => by
    unfold split at h
    split at h
    · rename_i hs; cases h; exact ⟨rfl, starts_prefix.1 hs⟩
    · cases hr : split w s with
      | none => rw [hr] at h; cases h
      | some r =>
        obtain ⟨a', m'⟩ := r
        rw [hr] at h
        cases h
        obtain ⟨h1, h2⟩ := split_some hr
        exact ⟨by simp [h1], h2⟩

theorem split_isSome {w s : Str} : (split w s).isSome = true ↔ w <:+: s := by
  cases h : split w s with
  | none => simp [split_none.1 h]
  | some r =>
    obtain ⟨a, m⟩ := r
    obtain ⟨h1, h2⟩ := split_some h
    simp only [Option.isSome_some, true_iff]
    rw [h1]
    exact h2.isInfix.trans (List.suffix_append _ _).isInfix

theorem split_start {w t : Str} (hw : w ≠ []) : split w (w ++ t) = some ([], w ++ t) := by
  cases w with
  | nil => exact absurd rfl hw
  | cons c w =>
    rw [List.cons_append, split, if_pos (starts_prefix.2 ⟨t, by simp⟩)]

/-- A text without the word is passed over. -/
theorem split_line {w : Str} (hw : w ≠ []) {x : Char} (hx : x ∉ w) : ∀ {a b : Str}, ¬ w <:+: a →
    split w (a ++ x :: b) = (split w b).map fun r => (a ++ x :: r.1, r.2)
  | [], b, _ => by
    rw [List.nil_append, split, if_neg]
    · rfl
    · rw [starts_prefix]
      intro h
      obtain ⟨t, ht⟩ := h
      cases w with
      | nil => exact hw rfl
      | cons y w =>
        simp only [List.cons_append, List.cons.injEq] at ht
        exact hx (by simp [ht.1])
  | c :: a, b, h => by
    rw [List.cons_append, split, if_neg, split_line hw hx (fun h' => h (List.infix_cons h')), Option.map_map]
    · rfl
    · rw [starts_prefix]
      intro hp
      apply h
      by_cases hl : w.length ≤ (c :: a).length
      · have : w <+: c :: a := by
          have h2 : (c :: a) <+: (c :: (a ++ x :: b)) := ⟨x :: b, by simp⟩
          exact List.prefix_of_prefix_length_le hp h2 hl
        exact this.isInfix
      · exfalso
        have h2 : ((c :: a) ++ [x]) <+: (c :: (a ++ x :: b)) := ⟨b, by simp⟩
        have h3 := List.prefix_of_prefix_length_le h2 hp (by simp at hl ⊢; omega)
        exact hx (h3.subset (by simp))

theorem split_char {x : Char} {a b : Str} (h : x ∉ a) : split [x] (a ++ x :: b) = some (a, x :: b) := by
  induction a with
  | nil =>
    have : startsWith (x :: b) [x] = true := starts_prefix.2 ⟨b, rfl⟩
    rw [List.nil_append, split, if_pos this]
  | cons c a ih =>
    simp only [List.mem_cons, not_or] at h
    rw [List.cons_append, split, if_neg, ih h.2]
    · rfl
    · rw [starts_prefix]
      rintro ⟨t, ht⟩
      simp only [List.cons_append, List.cons.injEq] at ht
      exact h.1 ht.1

theorem split_in {w : Str} : ∀ {a b p m : Str}, split w a = some (p, m) → split w (a ++ b) = some (p, m ++ b)
  | [], b, p, m, h => by
    unfold split at h
    split at h
    · rename_i hw
      cases h
      subst hw
      cases b with
      | nil => rfl
      | cons c b => rw [List.nil_append, split, if_pos (starts_prefix.2 (List.nil_prefix))]
    · cases h
  | c :: a, b, p, m, h => by
    have hlen : w.length ≤ (c :: a).length := by
      obtain ⟨h1, h2⟩ := split_some h
      have := h2.length_le
      rw [h1]
      simp; omega
    rw [List.cons_append, split]
    rw [split] at h
    by_cases hs : startsWith (c :: a) w = true
    · rw [if_pos hs] at h
      cases h
      have hp := starts_prefix.1 hs
      rw [if_pos (starts_prefix.2 (hp.trans ⟨b, by simp⟩))]
      rfl
    · rw [if_neg hs] at h
      rw [if_neg]
      · cases hr : split w a with
        | none => rw [hr] at h; cases h
        | some r =>
          obtain ⟨p', m'⟩ := r
          rw [hr] at h
          cases h
          rw [split_in hr]
          rfl
      · rw [starts_prefix]
        intro hp
        exact hs (starts_prefix.2 (List.prefix_of_prefix_length_le hp ⟨b, by simp⟩ hlen))

/-! ### Keys -/

theorem strip_unique {a b c d : Str} (h : a ++ b = c ++ d) (ha : NoTrail a) (hc : NoTrail c) (hb : ∀ x ∈ b, blank x = true) (hd : ∀ x ∈ d, blank x = true) : a = c := by
  have key : ∀ {a c x : Str}, c = a ++ x → NoTrail c → (∀ y ∈ x, blank y = true) → a = c := by
    intro a c x e hc hx
    cases hx' : x.getLast? with
    | none => rw [List.getLast?_eq_none_iff] at hx'; simp [e, hx']
    | some y =>
      have hm := List.mem_of_getLast? hx'
      have := hc y (by rw [e, List.getLast?_append, hx']; rfl)
      rw [hx y hm] at this; cases this
  rcases List.append_eq_append_iff.1 h with ⟨x, h1, h2⟩ | ⟨x, h1, h2⟩
  · exact key h1 hc (fun y hy => hb y (by rw [h2]; simp [hy]))
  · exact (key h1 ha (fun y hy => hd y (by rw [h2]; simp [hy]))).symm

theorem noTrail_append {a w : Str} (hw : w ≠ []) (h : NoTrail w) : NoTrail (a ++ w) := by
  intro c hc
  cases hl : w.getLast? with
  | none => rw [List.getLast?_eq_none_iff] at hl; exact absurd hl hw
  | some y =>
    rw [List.getLast?_append, hl] at hc
    cases hc
    exact h _ hl

section
variable {w : Str}

/-- Only the place where the word is found matters. -/
theorem extractF_congr {s t : Str} (h : (split w s).map (·.2) = (split w t).map (·.2)) : ∀ f, extractF w f s = extractF w f t
  | 0 => rfl
  | f + 1 => by
    unfold extractF
    cases hs : split w s with
    | none =>
      rw [hs] at h
      cases ht : split w t with
      | none => rfl
      | some r => rw [ht] at h; cases h
    | some r =>
      cases ht : split w t with
      | none => rw [hs, ht] at h; cases h
      | some q =>
        rw [hs, ht] at h
        obtain ⟨_, m⟩ := r
        obtain ⟨_, m'⟩ := q
        simp only [Option.map_some, Option.some.injEq] at h
        rw [h]

theorem split_line2 (hw : w ≠ []) {x : Char} (hx : x ∉ w) {a b : Str} (h : ¬ w <:+: a) : (split w (a ++ x :: b)).map (·.2) = (split w b).map (·.2) := by
  rw [split_line hw hx h, Option.map_map]
  rfl

/-- A line without the word. -/
theorem skip_field' (h1 : w ≠ []) (h2 : ':' ∉ w) (h3 : '\n' ∉ w) {a v rest : Str} (ha : ¬ w <:+: a) (hv : ¬ w <:+: v) :
    (split w (a ++ ':' :: (v ++ '\n' :: rest))).map (·.2) = (split w rest).map (·.2) := by
  rw [split_line2 h1 h2 ha, split_line2 h1 h3 hv]

theorem skip_field (hw : Word w) {a v rest : Str} (ha : ¬ w <:+: a) (hv : ¬ w <:+: v) :
    (split w (a ++ ':' :: (v ++ '\n' :: rest))).map (·.2) = (split w rest).map (·.2) := skip_field' hw.1 hw.2.1 hw.2.2.1 ha hv

/-- The first field with this key, and the lines after it. -/
def firstHit (w : Str) : List (Option Field) → Option (Field × List (Option Field))
  | [] => none
  | none :: l => firstHit w l
  | some f :: l => if f.key = w then some (f, l) else firstHit w l

theorem field_text (f : Field) (r : Str) : f.text ++ r = (f.key ++ f.pad) ++ ':' :: (f.value ++ '\n' :: r) := by
  simp [Field.text]

theorem extractF_items (hw : Word w) : ∀ (l : List (Option Field)), ClearTo l w → ∀ f, (text l).length < f →
    extractF w f (text l) = some (match firstHit w l with
      | none => (none, [])
      | some (fd, post) => (some (fd.text ++ text post), fd.value.drop 1))
  | _, _, 0, hf => absurd hf (Nat.not_lt_zero _)
  | [], _, f + 1, _ => by
    unfold extractF
    have : split w (text []) = none := split_none.2 (by simpa [text] using hw.1)
    rw [this]
    rfl
  | none :: l, hl, f + 1, hf => by
    have hl' : ClearTo l w := fun f hf => hl f (by simpa [fields] using hf)
    have e : (split w (text (none :: l))).map (·.2) = (split w (text l)).map (·.2) := by
      have := split_line2 hw.1 hw.2.2.1 (a := []) (b := text l) (by simpa using hw.1)
      simpa [text] using this
    rw [extractF_congr e, extractF_items hw l hl' (f + 1) (by simp [text] at hf; omega)]
    rfl
  | some fd :: l, hl, f + 1, hf => by
    have hl' : fd.key ≠ w → ClearTo l w := fun hk f hf => hl f (by simp only [fields, List.filterMap_cons] at hf ⊢; simp [upTo, hk, hf])
    obtain ⟨⟨k1, k2, k3, k4, k5⟩, hv, hk, hne⟩ := hl fd (by simp [fields, upTo])
    have hlen : (text l).length < f := by
      simp only [text, Field.text, List.length_append, List.length_cons] at hf
      omega
    simp only [text, firstHit]
    have hcol : ':' ∉ fd.key ++ fd.pad := by
      simp only [List.mem_append, not_or]
      refine ⟨k1, fun h => ?_⟩
      have := k4 _ h
      simp [blank] at this
    cases hs : split w (fd.key ++ fd.pad) with
    | none =>
      rw [field_text, extractF_congr (skip_field hw (split_none.1 hs) hv)]
      have hn : fd.key ≠ w := by
        intro e
        rw [e, split_start hw.1] at hs
        cases hs
      rw [if_neg hn]
      exact extractF_items hw l (hl' hn) (f + 1) (by omega)
    | some r =>
      obtain ⟨p, m⟩ := r
      obtain ⟨e1, e2⟩ := split_some hs
      have hm : ':' ∉ m := fun h => hcol (by rw [e1]; simp [h])
      have s1 := split_in (b := ':' :: (fd.value ++ '\n' :: text l)) hs
      rw [field_text]
      have s2 : split [':'] (m ++ ':' :: (fd.value ++ '\n' :: text l)) = some (m, ':' :: (fd.value ++ '\n' :: text l)) := split_char hm
      have s3 : split ['\n'] (':' :: (fd.value ++ '\n' :: text l)) = some (':' :: fd.value, '\n' :: text l) := by
        have := split_char (x := '\n') (a := ':' :: fd.value) (b := text l) (by simp [k5])
        simpa using this
      obtain ⟨r, rfl⟩ := e2
      unfold extractF
      rw [s1]
      simp only
      rw [s2]
      simp only
      rw [s3]
      simp only
      rw [List.drop_left]
      by_cases hb : r.all blank = true
      · have e : fd.key = w := by
          have := strip_unique (a := fd.key) (b := fd.pad) (c := p ++ w) (d := r) (by rw [e1]; simp) k3 (noTrail_append hw.1 hw.2.2.2) k4 (List.all_eq_true.1 hb)
          exact hk ⟨p, this.symm⟩
        rw [if_pos hb, if_pos e]
        have hp : p = [] := by
          rw [e, split_start hw.1] at hs
          exact (Prod.mk.inj (Option.some.inj hs)).1.symm
        have hval := hne e
        cases hv' : fd.value with
        | nil => exact absurd hv' hval
        | cons x v =>
          subst hp
          simp only [List.length_cons, Nat.add_eq_right, Nat.add_eq_zero_iff, List.drop_succ_cons, List.drop_zero, List.cons_append]
          rw [List.nil_append] at e1
          rw [if_neg (by omega), show v.length + 1 + 1 - 2 = v.length by omega, List.take_left, field_text, hv', e1]
          simp
      · have hn : fd.key ≠ w := by
          intro e
          rw [e, split_start hw.1] at hs
          apply hb
          rw [List.all_eq_true]
          have : fd.pad = r := List.append_cancel_left (Prod.mk.inj (Option.some.inj hs)).2
          exact this ▸ k4
        rw [if_neg hb, if_neg hn]
        have e : (split w ('\n' :: text l)).map (·.2) = (split w (text l)).map (·.2) := by
          have := split_line2 hw.1 hw.2.2.1 (a := []) (b := text l) (by simpa using hw.1)
          simpa using this
        rw [extractF_congr e, extractF_items hw l (hl' hn) f hlen]
  termination_by l => l.length

theorem upTo_sub {w : Str} : ∀ {l : List Field} {f : Field}, f ∈ upTo w l → f ∈ l
  | [], _, h => by cases h
  | g :: l, f, h => by
    simp only [upTo, List.mem_cons] at h
    rcases h with rfl | h
    · simp
    · split at h
      · cases h
      · simp [upTo_sub h]

theorem clear_to {l : List (Option Field)} (h : Clear l w) : ClearTo l w := fun f hf => h f (upTo_sub hf)

theorem extract_items (hw : Word w) {l : List (Option Field)} (hl : ClearTo l w) :
    extract w (text l) = match firstHit w l with
      | none => (none, [])
      | some (fd, post) => (some (fd.text ++ text post), fd.value.drop 1) := by
  unfold extract
  rw [extractF_items hw l hl _ (Nat.lt_succ_self _)]
  rfl

theorem firstHit_find : ∀ (l : List (Option Field)), (firstHit w l).map (·.1) = (fields l).find? (fun f => f.key = w)
  | [] => rfl
  | none :: l => by simpa [firstHit, fields] using firstHit_find l
  | some f :: l => by
    simp only [firstHit, fields, List.filterMap_cons, id]
    by_cases h : f.key = w
    · simp [h]
    · simp only [if_neg h, List.find?_cons]
      rw [firstHit_find l]
      simp [h, fields]
end

/-- C218, for files in which, up to the first line with this key, the word is in no value and at the end of no other key, and its own value
    is there. -/
theorem C218_partial (l : List (Option Field)) (w : Str) (hw : Word w) (hl : ClearTo l w) : (extract w (text l)).2 = valueOf l w := by
  rw [extract_items hw hl]
  unfold valueOf
  rw [← firstHit_find]
  cases firstHit w l with
  | none => rfl
  | some r => rfl

/-- A key whose colon ends the line: the value is the rest of the file. -/
theorem C218_missing (w pad rest : Str) (hw : Word w) (hp : ∀ c ∈ pad, blank c = true) : (extract w (w ++ pad ++ ':' :: '\n' :: rest)).2 = rest := by
  unfold extract extractF
  have s1 : split w (w ++ pad ++ ':' :: '\n' :: rest) = some ([], w ++ pad ++ ':' :: '\n' :: rest) := by
    rw [List.append_assoc]; exact split_start hw.1
  have hc : ':' ∉ w ++ pad := by
    simp only [List.mem_append, not_or]
    refine ⟨hw.2.1, fun h => ?_⟩
    have := hp _ h
    simp [blank] at this
  rw [s1]
  simp only
  rw [split_char hc]
  simp only
  have s3 : split ['\n'] (':' :: '\n' :: rest) = some ([':'], '\n' :: rest) := split_char (x := '\n') (a := [':']) (b := rest) (by decide)
  rw [s3]
  simp only [List.drop_left, List.all_eq_true.2 hp]
  rfl

/-- C218 is false of the code: a value that is missing altogether is replaced by the rest of the file, and a line is passed over when the
    word is in the value of the line before. -/
theorem C218_refuted : ¬ C218_statement ∧
    (∀ w pad rest : Str, Word w → (∀ c ∈ pad, blank c = true) → (extract w (w ++ pad ++ ':' :: '\n' :: rest)).2 = rest) ∧
    (extract (c!"model") (text [some ⟨c!"name", c!"\t", c!" a model"⟩, some ⟨c!"model", c!"\t", c!" 7"⟩])).2 = [] := by
  have e : (extract (c!"model") (text [some ⟨c!"name", c!"\t", c!" a model"⟩, some ⟨c!"model", c!"\t", c!" 7"⟩])).2 = [] := by decide +kernel
  refine ⟨fun h => ?_, C218_missing, e⟩
  have := h [some ⟨c!"name", c!"\t", c!" a model"⟩, some ⟨c!"model", c!"\t", c!" 7"⟩] (c!"model") (by
    intro f hf
    simp only [fields, List.filterMap_cons, List.filterMap_nil, id, List.mem_cons, List.not_mem_nil, or_false] at hf
    rcases hf with rfl | rfl <;> refine ⟨by decide, by decide, ?_, by decide, by decide⟩ <;> intro c hc <;> simp at hc <;> subst hc <;> decide)
    ⟨by decide, by decide, by decide, by intro c hc; simp at hc; subst hc; decide⟩
  rw [e] at this
  revert this
  decide +kernel

/-! ### C219: logical processors -/

theorem countF_congr {w s t : Str} (h : (split w s).map (·.2) = (split w t).map (·.2)) : ∀ f, countF w f s = countF w f t
  | 0 => rfl
  | f + 1 => by
    unfold countF
    cases hs : split w s with
    | none =>
      rw [hs] at h
      cases ht : split w t with
      | none => rfl
      | some r => rw [ht] at h; cases h
    | some r =>
      cases ht : split w t with
      | none => rw [hs, ht] at h; cases h
      | some q =>
        rw [hs, ht] at h
        obtain ⟨_, m⟩ := r
        obtain ⟨_, m'⟩ := q
        simp only [Option.map_some, Option.some.injEq] at h
        rw [h]

theorem count_items : ∀ (l : List (Option Field)), Procs l → ∀ f, (text l).length < f → countF (c!"processor\t") f (text l) = numOf l (c!"processor")
  | _, _, 0, hf => absurd hf (Nat.not_lt_zero _)
  | [], _, f + 1, _ => rfl
  | none :: l, hl, f + 1, hf => by
    have hl' : Procs l := fun f hf => hl f (by simpa [fields] using hf)
    have e : (split (c!"processor\t") (text (none :: l))).map (·.2) = (split (c!"processor\t") (text l)).map (·.2) := by
      have := split_line2 (w := c!"processor\t") (x := '\n') (by decide) (by decide) (a := []) (b := text l) (by decide)
      simpa [text] using this
    rw [countF_congr e, count_items l hl' (f + 1) (by simp [text] at hf; omega)]
    simp [numOf, fields]
  | some fd :: l, hl, f + 1, hf => by
    have hl' : Procs l := fun f hf => hl f (by simp only [fields, List.filterMap_cons] at hf ⊢; simp [hf])
    obtain ⟨⟨k1, k2, k3, k4, k5⟩, hv, hp, hk⟩ := hl fd (by simp [fields])
    have hlen : (text l).length < f := by
      simp only [text, Field.text, List.length_append, List.length_cons] at hf
      omega
    simp only [text]
    by_cases e : fd.key = c!"processor"
    · obtain ⟨p, hpad⟩ := hp e
      have ht : fd.text ++ text l = (c!"processor\t") ++ (p ++ ':' :: (fd.value ++ '\n' :: text l)) := by
        simp [Field.text, e, hpad]
      rw [ht, countF, split_start (by decide)]
      simp only
      have hd : ((c!"processor\t") ++ (p ++ ':' :: (fd.value ++ '\n' :: text l))).drop 1 = ((c!"rocessor\t") ++ p) ++ ':' :: (fd.value ++ '\n' :: text l) := by simp
      rw [hd, countF_congr (skip_field' (by decide) (by decide) (by decide) ?_ hv), count_items l hl' f hlen]
      · simp [numOf, fields, e]
      · intro hi
        have : 'p' ∈ (c!"rocessor\t") ++ p := hi.subset (by decide)
        rw [List.mem_append] at this
        rcases this with h | h
        · exact absurd h (by decide)
        · have := k4 'p' (by rw [hpad]; simp [h])
          exact absurd this (by decide)
    · rw [field_text, countF_congr (skip_field' (by decide) (by decide) (by decide) (hk e) hv), count_items l hl' (f + 1) (by omega)]
      simp [numOf, fields, e]
  termination_by l => l.length

theorem text_append : ∀ (l m : List (Option Field)), text (l ++ m) = text l ++ text m
  | [], _ => rfl
  | none :: l, m => by simp [text, text_append l m]
  | some f :: l, m => by simp [text, text_append l m]

theorem buffer_file (l : List (Option Field)) : buffer (cpuFile l) = some (text l) := by
  have e : cpuFile l = text l ++ ['\n'] := by unfold cpuFile; rw [text_append]; rfl
  unfold buffer
  rw [e, if_neg (by simp)]
  congr 1
  rw [List.append_assoc, List.take_append_of_le_length (by simp)]
  simp

/-- C219: the number of logical CPUs is the number of `processor` lines, however many there are; an empty file makes the query (and with
    it every reading of a configuration file) throw std::length_error, and only that. -/
theorem C219_logical (l : List (Option Field)) (hl : Procs l) (c : Cpu) (hc : cpuInfo (some (cpuFile l)) = .ok c) : c.logical = numOf l (c!"processor") := by
  unfold cpuInfo at hc
  simp only [buffer_file] at hc
  cases hr : rawPhysical (text l) with
  | error e => rw [hr] at hc; cases hc
  | ok p =>
    rw [hr] at hc
    cases hc
    exact count_items l hl _ (Nat.lt_succ_self _)

theorem C219_empty (file : Option Str) : cpuInfo file = .error .length ↔ file = some [] := by
  unfold cpuInfo
  cases file with
  | none => simp
  | some f =>
    cases f with
    | nil => simp [buffer]
    | cons x f =>
      simp only [buffer, List.length_cons, Option.some.injEq, reduceCtorEq, iff_false]
      rw [if_neg (by omega)]
      simp only
      unfold rawPhysical
      dsimp only
      intro h
      split at h
      · rename_i e he
        cases h
        split at he
        · split at he <;> cases he
        · cases he
      · cases h

/-! ### C220: physical processors -/

theorem atoi_nat {n : Nat} (h : n < 2 ^ 31) : atoi (natStr n) = n := by
  unfold atoi strtol
  have h1 : ltrim (natStr n) = natStr n := ltrim_eq_self (by
    intro c hc
    exact isDigit_not_space (natStr_digits n c (List.mem_of_head? hc)))
  have h2 := splitSign_natStr n []
  rw [List.append_nil] at h2
  rw [h1, h2]
  simp only [Bool.false_eq_true, if_false]
  have h3 := (takeWhile_all (natStr_digits n) [] (by intro c hc; cases hc)).1
  rw [List.append_nil] at h3
  rw [h3, natStr_val]
  unfold toInt32
  omega

theorem wPhys : Word (c!"physical id") := ⟨by decide, by decide, by decide, by intro c hc; simp at hc; subst hc; decide⟩
theorem wCores : Word (c!"cpu cores") := ⟨by decide, by decide, by decide, by intro c hc; simp at hc; subst hc; decide⟩
theorem wActive : Word (c!"ncpus active") := ⟨by decide, by decide, by decide, by intro c hc; simp at hc; subst hc; decide⟩

theorem extract_after {w : Str} (hw : Word w) {fd : Field} {post : List (Option Field)} (hk : fd.key = w) (ok : fd.Ok) (hv : ¬ w <:+: fd.value) (hc : Clear post w) :
    extract w ((fd.text ++ text post).drop 1) = extract w (text post) := by
  obtain ⟨k1, k2, k3, k4, k5⟩ := ok
  obtain ⟨x, w', rfl⟩ : ∃ x w', w = x :: w' := by
    cases w with
    | nil => exact absurd rfl hw.1
    | cons x w' => exact ⟨x, w', rfl⟩
  have e : (fd.text ++ text post).drop 1 = (w' ++ fd.pad) ++ ':' :: (fd.value ++ '\n' :: text post) := by
    rw [field_text, hk]; simp
  have hn : ¬ (x :: w') <:+: w' ++ fd.pad := by
    rintro ⟨a, b, hab⟩
    have hlast : ∃ y, (x :: w').getLast? = some y := by
      cases hg : (x :: w').getLast? with
      | none => simp at hg
      | some y => exact ⟨y, rfl⟩
    obtain ⟨y, hy⟩ := hlast
    have hb := hw.2.2.2 y hy
    have g1 : (a ++ (x :: w') ++ b)[(a ++ (x :: w')).length - 1]? = some y := by
      rw [List.getElem?_append_left (by simp), ← List.getLast?_eq_getElem?, List.getLast?_append, hy]
      rfl
    rw [hab, List.getElem?_append_right (by simp)] at g1
    have := k4 y (List.mem_of_getElem? g1)
    rw [hb] at this; cases this
  have g : (split (x :: w') ((fd.text ++ text post).drop 1)).map (·.2) = (split (x :: w') (text post)).map (·.2) := by
    rw [e]; exact skip_field hw hn hv
  unfold extract
  rw [extractF_congr g, extractF_items hw post (clear_to hc) _ (by rw [e]; simp; omega), extractF_items hw post (clear_to hc) _ (Nat.lt_succ_self _)]

/-- The numbers of the packages, in the order of the file. -/
def idsOf (l : List (Option Field)) : List Int := ((fields l).filter (fun f => f.key = c!"physical id")).map fun f => atoi (f.value.drop 1)

theorem firstHit_none {w : Str} : ∀ {l : List (Option Field)}, firstHit w l = none → (fields l).filter (fun f => f.key = w) = []
  | [], _ => rfl
  | none :: l, h => by simpa [fields] using firstHit_none (l := l) h
  | some f :: l, h => by
    unfold firstHit at h
    split at h
    · cases h
    · rename_i hk
      have := firstHit_none (l := l) h
      simp only [fields, List.filterMap_cons, id, List.filter_cons] at this ⊢
      simp [hk, this]

theorem firstHit_some {w : Str} : ∀ {l : List (Option Field)} {fd : Field} {post : List (Option Field)}, firstHit w l = some (fd, post) →
    fd.key = w ∧ fd ∈ fields l ∧ (fields l).filter (fun f => f.key = w) = fd :: (fields post).filter (fun f => f.key = w) ∧ (∀ f ∈ fields post, f ∈ fields l) ∧
      (text post).length < (text l).length
  | [], _, _, h => by cases h
  | none :: l, fd, post, h => by
    obtain ⟨h1, h2, h3, h4, h5⟩ := firstHit_some (l := l) h
    refine ⟨h1, by simpa [fields] using h2, by simpa [fields] using h3, fun f hf => by simpa [fields] using h4 f hf, by simp [text]; omega⟩
  | some f :: l, fd, post, h => by
    unfold firstHit at h
    split at h
    · rename_i hk
      cases h
      refine ⟨hk, by simp [fields], by simp [fields, hk], fun f hf => by simp only [fields, List.filterMap_cons] at hf ⊢; simp [hf], by simp [text, Field.text]; omega⟩
    · rename_i hk
      obtain ⟨h1, h2, h3, h4, h5⟩ := firstHit_some (l := l) h
      refine ⟨h1, by simp only [fields, List.filterMap_cons] at h2 ⊢; simp [h2], ?_, fun f hf => by have := h4 f hf; simp only [fields, List.filterMap_cons] at this ⊢; simp [this], by simp [text]; omega⟩
      simp only [fields, List.filterMap_cons, id, List.filter_cons] at h3 ⊢
      simp [hk, h3]

theorem maxId_step (f : Nat) (s t : Str) (i : Int) (h : extract (c!"physical id") s = extract (c!"physical id") t) : maxIdF f s i = maxIdF f t i := by
  cases f with
  | zero => rfl
  | succ f => unfold maxIdF; rw [h]

theorem maxId_items : ∀ (f : Nat) (l : List (Option Field)), Clear l (c!"physical id") → (text l).length < f → ∀ i, maxIdF f (text l) i = (idsOf l).foldl max i
  | 0, _, _, hf, _ => absurd hf (Nat.not_lt_zero _)
  | f + 1, l, hl, hf, i => by
    unfold maxIdF
    rw [extract_items wPhys (clear_to hl)]
    cases hh : firstHit (c!"physical id") l with
    | none =>
      simp only
      unfold idsOf
      rw [firstHit_none hh]
      rfl
    | some r =>
      obtain ⟨fd, post⟩ := r
      obtain ⟨h1, h2, h3, h4, h5⟩ := firstHit_some hh
      have hp : Clear post (c!"physical id") := fun f hf => hl f (h4 f hf)
      simp only
      rw [maxId_step f _ (text post) _ (extract_after wPhys h1 (hl fd h2).1 (hl fd h2).2.1 hp), maxId_items f post hp (by omega)]
      unfold idsOf
      rw [h3, List.map_cons, List.foldl_cons]
      congr 1
      split <;> omega

theorem foldl_max {n : Int} : ∀ {l : List Int} {i : Int}, i ≤ n → (∀ x ∈ l, x ≤ n) → (i = n ∨ n ∈ l) → l.foldl max i = n
  | [], i, _, _, h3 => by rcases h3 with h | h; exact h; simp at h
  | a :: l, i, h1, h2, h3 => by
    rw [List.foldl_cons]
    refine foldl_max (by have := h2 a (by simp); omega) (fun x hx => h2 x (by simp [hx])) ?_
    have := h2 a (by simp)
    simp only [List.mem_cons] at h3
    rcases h3 with h | h | h
    · left; omega
    · left; omega
    · exact .inr h

theorem maxId_cores {l : List (Option Field)} {packages cores : Nat} (h : Cores l packages cores) : maxIdF ((text l).length + 1) (text l) (-1) = packages - 1 := by
  have hp : packages < 2 ^ 31 := by
    have := h.pos
    have : packages ≤ packages * cores := Nat.le_mul_of_pos_right _ (by omega)
    omega
  rw [maxId_items _ l (h.clear _ (by decide)) (Nat.lt_succ_self _)]
  have hpos := h.pos.1
  refine foldl_max (by omega) ?_ (.inr ?_)
  · intro x hx
    unfold idsOf at hx
    rw [List.mem_map] at hx
    obtain ⟨f, hf, rfl⟩ := hx
    rw [List.mem_filter] at hf
    obtain ⟨i, hi, hv⟩ := h.below f hf.1 (by simpa using hf.2)
    rw [hv, List.drop_succ_cons, List.drop_zero, atoi_nat (by omega)]
    omega
  · obtain ⟨f, hf, hk, hv⟩ := h.last
    unfold idsOf
    rw [List.mem_map]
    refine ⟨f, List.mem_filter.2 ⟨hf, by simpa using hk⟩, ?_⟩
    rw [hv, List.drop_succ_cons, List.drop_zero, atoi_nat (by omega)]
    omega

/-- C220 for machines with two or more packages. -/
theorem C220_partial (l : List (Option Field)) (packages cores : Nat) (h : Cores l packages cores) (h2 : 2 ≤ packages) :
    ∃ c, cpuInfo (some (cpuFile l)) = .ok c ∧ c.physical = packages * cores := by
  have hm := maxId_cores h
  obtain ⟨p1, p2, p3⟩ := h.pos
  have hc : cores < 2 ^ 31 := by
    have : cores ≤ packages * cores := Nat.le_mul_of_pos_left _ p1
    omega
  have hpk : packages < 2 ^ 31 := by
    have : packages ≤ packages * cores := Nat.le_mul_of_pos_right _ p2
    omega
  have hcores : atoi (extract (c!"cpu cores") (text l)).2 = cores := by
    rw [C218_partial l _ wCores (clear_to (h.clear _ (by decide))), h.each, atoi_nat hc]
  have hprod : (cores : Int) * ((packages : Int) - 1 + 1) = ((packages * cores : Nat) : Int) := by
    rw [Int.sub_add_cancel, Int.mul_comm]; push_cast; rfl
  have hr : rawPhysical (text l) = .ok (packages * cores) := by
    unfold rawPhysical
    dsimp only
    rw [hm, hcores, hprod, if_pos (by omega), if_pos (by omega)]
    congr 1
    unfold toUnsigned
    omega
  refine ⟨_, by unfold cpuInfo; simp only [buffer_file, hr]; rfl, ?_⟩
  have : 0 < packages * cores := Nat.mul_pos p1 p2
  simp only
  rw [if_neg (by omega)]

/-- One package: the answer is 1 whatever the number of cores is (unless there is a key `ncpus active`). -/
theorem C220_single (l : List (Option Field)) (cores : Nat) (h : Cores l 1 cores) (hn : ∀ f ∈ fields l, f.key ≠ c!"ncpus active") :
    ∃ c, cpuInfo (some (cpuFile l)) = .ok c ∧ c.physical = 1 := by
  have hm := maxId_cores h
  have hv : valueOf l (c!"ncpus active") = [] := by
    unfold valueOf
    rw [List.find?_eq_none.2 (fun f hf => by simpa using hn f hf)]
  have hr : rawPhysical (text l) = .ok 0 := by
    unfold rawPhysical
    dsimp only
    rw [hm, if_neg (by omega), C218_partial l _ wActive (clear_to (h.clear _ (by decide))), hv]
    rfl
  exact ⟨_, by unfold cpuInfo; simp only [buffer_file, hr]; rfl, rfl⟩

end Vital.SysInfo
