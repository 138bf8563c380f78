/-
  The parser accepts exactly the grammar, and its trees have the same ways to match as those of the grammar.
-/
import Verif.Regex.Grammar
import Verif.Regex.Parse

namespace Vital.Regex
open Re

/-! ### Classes -/

theorem classScan_cons (p c : Nat) (t : List Nat) : classScan p (c :: t) =
    if c = 93 then some ([], t)
    else if c = 45 then
      match t with
      | [] => none
      | h :: t' =>
        if h = 93 then some ([45], t')
        else if p + 1 > h + 1 then none
        else (classScan h t').map (fun r => (byteRange (p + 1) h ++ r.1, r.2))
    else (classScan c t).map (fun r => (c :: r.1, r.2)) := by
  cases t <;> rw [classScan] <;> rfl

/-- The characters stored after `p` are those of the ranges, up to `p` itself. -/
def SameSet (p : Nat) (cs : List Nat) (l : List (Nat × Nat)) : Prop := ∀ c, (c ∈ cs ∨ c = p) ↔ (Rx.inRanges l c ∨ c = p)

theorem inRanges_cons {p : Nat × Nat} {l : List (Nat × Nat)} {c : Nat} : Rx.inRanges (p :: l) c ↔ (p.1 ≤ c ∧ c ≤ p.2) ∨ Rx.inRanges l c := by
  simp [Rx.inRanges]

theorem SameSet.range {p d : Nat} {cs : List Nat} {l : List (Nat × Nat)} (hle : p ≤ d) (hm : SameSet d cs l) :
    SameSet p (byteRange (p + 1) d ++ cs) ((p, d) :: l) := by
  intro c
  have := hm c
  simp only [List.mem_append, mem_byteRange, inRanges_cons]
  by_cases hcp : c = p
  · simp [hcp]
  · by_cases hcd : c = d
    · constructor
      · intro _; exact Or.inl (Or.inl (by omega))
      · intro _; exact Or.inl (Or.inl (by omega))
    · have e : c ∈ cs ↔ Rx.inRanges l c := by simpa [hcd] using this
      rw [e]
      constructor
      · rintro ((h | h) | h)
        · exact Or.inl (Or.inl ⟨by omega, h.2⟩)
        · exact Or.inl (Or.inr h)
        · exact Or.inr h
      · rintro ((h | h) | h)
        · exact Or.inl (Or.inl ⟨by omega, h.2⟩)
        · exact Or.inl (Or.inr h)
        · exact Or.inr h

theorem SameSet.all {c : Nat} {cs : List Nat} {l : List (Nat × Nat)} (hm : SameSet c cs l) (d : Nat) : d ∈ c :: cs ↔ Rx.inRanges ((c, c) :: l) d := by
  have := hm d
  simp only [inRanges_cons, List.mem_cons]
  by_cases hd : d = c
  · constructor
    · intro _; exact Or.inl (by omega)
    · intro _; exact Or.inl hd
  · have e : d ∈ cs ↔ Rx.inRanges l d := by simpa [hd] using this
    rw [e]
    constructor
    · exact fun h => Or.inr (h.resolve_left hd)
    · rintro (h | h)
      · exact absurd (by omega) hd
      · exact Or.inr h

theorem SameSet.one {p c : Nat} {cs : List Nat} {l : List (Nat × Nat)} (hm : SameSet c cs l) : SameSet p (c :: cs) ((c, c) :: l) := by
  intro d; rw [hm.all d]

theorem classScan_sound : ∀ (k : Nat) (p : Nat) (t cs t' : List Nat), t.length ≤ k → classScan p t = some (cs, t') →
    ∃ y l, t = y ++ t' ∧ ClassRest p y l ∧ SameSet p cs l := by
  intro k
  induction k with
  | zero =>
    intro p t cs t' hk h
    cases t with
    | nil => simp [classScan] at h
    | cons c t => simp at hk
  | succ k ih =>
    intro p t cs t' hk h
    cases t with
    | nil => simp [classScan] at h
    | cons c t =>
      rw [classScan_cons] at h
      split at h
      · rename_i hc; subst hc; cases h
        exact ⟨[93], [], rfl, .close, by intro c; simp [Rx.inRanges]⟩
      · rename_i h93
        split at h
        · rename_i hc; subst hc
          cases t with
          | nil => simp at h
          | cons d t =>
            simp only at h
            split at h
            · rename_i hd; subst hd; cases h
              refine ⟨[45, 93], [(45, 45)], rfl, .dash, ?_⟩
              intro c; simp [Rx.inRanges]; omega
            · rename_i hd
              split at h
              · cases h
              · rename_i hle
                cases hr : classScan d t with
                | none => simp [hr] at h
                | some v =>
                  obtain ⟨cs1, t1⟩ := v
                  simp [hr] at h
                  obtain ⟨rfl, rfl⟩ := h
                  obtain ⟨y, l, rfl, hy, hm⟩ := ih d t cs1 t1 (by simp at hk; omega) hr
                  exact ⟨45 :: d :: y, (p, d) :: l, rfl, .range hd (by omega) hy, hm.range (by omega)⟩
        · rename_i h45
          cases hr : classScan c t with
          | none => simp [hr] at h
          | some v =>
            obtain ⟨cs1, t1⟩ := v
            simp [hr] at h
            obtain ⟨rfl, rfl⟩ := h
            obtain ⟨y, l, rfl, hy, hm⟩ := ih c t cs1 t1 (by simp at hk; omega) hr
            exact ⟨c :: y, (c, c) :: l, rfl, .one h93 h45 hy, hm.one⟩

theorem classScan_complete {p : Nat} {y : List Nat} {l : List (Nat × Nat)} (h : ClassRest p y l) (t : List Nat) :
    ∃ cs, classScan p (y ++ t) = some (cs, t) ∧ SameSet p cs l := by
  induction h with
  | close => exact ⟨[], by simp [classScan_cons], by intro c; simp [Rx.inRanges]⟩
  | dash => exact ⟨[45], by simp [classScan_cons], by intro c; simp [Rx.inRanges]; omega⟩
  | range hh hle _ ih =>
    obtain ⟨cs, hcs, hm⟩ := ih
    exact ⟨_, by simp [classScan_cons, hh, hcs, Nat.not_lt.mpr hle], hm.range hle⟩
  | one h1 h2 _ ih =>
    obtain ⟨cs, hcs, hm⟩ := ih
    exact ⟨_, by simp [classScan_cons, h1, h2, hcs], hm.one⟩

theorem classBody_eq (neg : Bool) (c : Nat) (t : List Nat) (h : neg = true ∨ c ≠ 94) :
    classBody ((if neg then [94] else []) ++ c :: t) = (classScan c t).map (fun r => (neg, c :: r.1, r.2)) := by
  have key : (if c = 93 ∨ c = 45 then (classScan c t).map (fun r => (neg, c :: r.1, r.2))
      else (classScan 0 (c :: t)).map (fun r => (neg, r.1, r.2))) = (classScan c t).map (fun r => (neg, c :: r.1, r.2)) := by
    split
    · rfl
    · rename_i hc
      rw [classScan_cons, if_neg (by omega), if_neg (by omega)]
      cases classScan c t <;> rfl
  cases neg with
  | true => simp only [classBody]; exact key
  | false =>
    have hc : c ≠ 94 := by simpa using h
    have : ((some c : Option Nat) == some 94) = false := by simpa using hc
    simp only [classBody, Bool.false_eq_true, if_false, List.nil_append, List.head?_cons, this]
    exact key

/-- The same ways to match. -/
structure Same (r : Re) (x : Rx) : Prop where
  outs : ∀ n u, outs n r u = Vital.Regex.outs n x.toRe u
  width : r.width = x.toRe.width

theorem set_same {neg : Bool} {cs : List Nat} {l : List (Nat × Nat)} (h : ∀ c, c ∈ cs ↔ Rx.inRanges l c) : Same (.set neg cs) (.set neg l) := by
  refine ⟨fun n u => ?_, rfl⟩
  have : ∀ c, cs.contains c = (rangeChars l).contains c := by
    intro c; rw [Bool.eq_iff_iff]; simp [h c, mem_rangeChars]
  simp only [Rx.toRe, Vital.Regex.outs, this]

theorem classBody_sound {t : List Nat} {neg : Bool} {cs t' : List Nat} (h : classBody t = some (neg, cs, t')) :
    ∃ y l, t = (if neg then [94] else []) ++ y ++ t' ∧ (neg = false → y.head? ≠ some 94) ∧ ClassText y l ∧ ∀ c, c ∈ cs ↔ Rx.inRanges l c := by
  have main : ∀ (g : Bool) (c : Nat) (v : List Nat), (g = true ∨ c ≠ 94) → t = (if g then [94] else []) ++ c :: v →
      ∃ y l, t = (if neg then [94] else []) ++ y ++ t' ∧ (neg = false → y.head? ≠ some 94) ∧ ClassText y l ∧ ∀ c, c ∈ cs ↔ Rx.inRanges l c := by
    intro g c v hg ht
    rw [ht, classBody_eq g c v hg] at h
    cases hs : classScan c v with
    | none => simp [hs] at h
    | some w =>
      obtain ⟨cs1, t1⟩ := w
      simp [hs] at h
      obtain ⟨rfl, rfl, rfl⟩ := h
      obtain ⟨y, l, rfl, hy, hm⟩ := classScan_sound _ c v cs1 t1 (Nat.le_refl _) hs
      refine ⟨c :: y, (c, c) :: l, by rw [ht]; simp, ?_, .mk hy, hm.all⟩
      intro hn; rcases hg with hg | hg
      · rw [hn] at hg; cases hg
      · simpa using hg
  cases t with
  | nil => simp [classBody] at h
  | cons c t =>
    by_cases hc : c = 94
    · subst hc
      cases t with
      | nil => simp [classBody] at h
      | cons d t => exact main true d t (Or.inl rfl) rfl
    · exact main false c t (Or.inr hc) rfl

theorem classBody_complete {y : List Nat} {l : List (Nat × Nat)} (h : ClassText y l) (neg : Bool) (hh : neg = false → y.head? ≠ some 94) (t : List Nat) :
    ∃ cs, classBody ((if neg then [94] else []) ++ y ++ t) = some (neg, cs, t) ∧ Same (.set neg cs) (.set neg l) := by
  cases h with
  | mk hr =>
    rename_i c v l
    obtain ⟨cs, hcs, hm⟩ := classScan_complete hr t
    have hg : neg = true ∨ c ≠ 94 := by
      cases neg with
      | true => exact Or.inl rfl
      | false => exact Or.inr (by simpa using hh rfl)
    refine ⟨c :: cs, ?_, set_same hm.all⟩
    rw [List.append_assoc, List.cons_append, classBody_eq neg c (v ++ t) hg, hcs]; rfl

/-! ### Laws -/

theorem andThen_one (u : List Nat) (g : List Nat → List Out) : andThen [(u, [])] g = g u := by
  simp [andThen]

theorem andThen_assoc (l : List Out) (g h : List Nat → List Out) : andThen (andThen l g) h = andThen l (fun v => andThen (g v) h) := by
  induction l with
  | nil => rfl
  | cons p l ih =>
    have e : ∀ (x y : List Out) (k : List Nat → List Out), andThen (x ++ y) k = andThen x k ++ andThen y k := by
      intro x y k; simp [andThen]
    have c : ∀ (q : Out) (m : List Out) (k : List Nat → List Out), andThen (q :: m) k = (k q.1).map (fun z => (z.1, q.2 ++ z.2)) ++ andThen m k := fun _ _ _ => rfl
    rw [c, e, ih, c]
    congr 1
    induction g p.1 with
    | nil => rfl
    | cons q m ihm =>
      rw [List.map_cons, c, ihm, c, List.map_append]
      simp [List.append_assoc, Function.comp_def]

theorem andThen_id (l : List Out) : andThen l (fun u => [(u, [])]) = l := by
  induction l with
  | nil => rfl
  | cons p l ih =>
    have c : ∀ (q : Out) (m : List Out) (k : List Nat → List Out), andThen (q :: m) k = (k q.1).map (fun z => (z.1, q.2 ++ z.2)) ++ andThen m k := fun _ _ _ => rfl
    rw [c, ih]; simp

theorem outs_lit_nil (n : Nat) (u : List Nat) : outs n (.lit []) u = [(u, [])] := by simp [outs]

theorem outs_lit_append (n : Nat) (a b u : List Nat) : outs n (.lit (a ++ b)) u = andThen (outs n (.lit a) u) (outs n (.lit b)) := by
  simp only [outs]
  by_cases ha : a <+: u
  · obtain ⟨v, rfl⟩ := ha
    rw [if_pos (List.isPrefixOf_iff_prefix.mpr (List.prefix_append a v)), andThen_one]
    have : (a ++ b).isPrefixOf (a ++ v) = b.isPrefixOf v := by
      rw [Bool.eq_iff_iff]; simp only [List.isPrefixOf_iff_prefix, List.prefix_append_right_inj]
    simp [this]
  · rw [if_neg (fun h => ha (List.isPrefixOf_iff_prefix.mp h)), if_neg]; · rfl
    intro h
    exact ha ((List.prefix_append a b).trans (List.isPrefixOf_iff_prefix.mp h))

/-- The ways of a branch that may still be empty. -/
def outsO (n : Nat) : Option Re → List Nat → List Out
  | none, u => [(u, [])]
  | some r, u => outs n r u

def widthO : Option Re → Bool
  | none => false
  | some r => r.width

theorem outs_joinP (n : Nat) (acc : Option Re) (q : Re) (u : List Nat) : outs n (joinP acc q) u = andThen (outsO n acc u) (outs n q) := by
  cases acc with
  | none => simp [joinP, outsO, andThen_one]
  | some a => rfl

theorem width_joinP (acc : Option Re) (q : Re) : (joinP acc q).width = (widthO acc || q.width) := by
  cases acc <;> simp [joinP, widthO, width]

/-- A list of alternatives. -/
def AltChain : Re → Prop
  | .last _ => True
  | .alt _ r => AltChain r
  | _ => False

theorem snocAlt_sem {r b : Re} (h : AltChain r) : AltChain (snocAlt r b) ∧ (∀ n u, outs n (snocAlt r b) u = outs n r u ++ outs n b u) ∧
    (snocAlt r b).width = (r.width && b.width) := by
  induction r with
  | last a => exact ⟨trivial, fun n u => rfl, rfl⟩
  | alt a r _ ih =>
    obtain ⟨h1, h2, h3⟩ := ih h
    refine ⟨h1, fun n u => ?_, ?_⟩
    · simp [snocAlt, outs, h2]
    · simp [snocAlt, width, h3, Bool.and_assoc]
  | _ => exact absurd h (by simp [AltChain])

/-! ### Characters -/

theorem isMeta_iff {c : Nat} : isMeta c = true ↔ c ∈ special := by
  simp [isMeta, special]; omega

theorem isMeta_false {c : Nat} : isMeta c = false ↔ c ∉ special := by
  rw [← isMeta_iff]; simp

theorem isMult_meta {c : Nat} (h : isMult c = true) : isMeta c = true := by
  simp [isMult, isMeta] at h ⊢; omega

theorem notSpecial {c : Nat} (h : c ∉ special) : c ≠ 94 ∧ c ≠ 36 ∧ c ≠ 46 ∧ c ≠ 91 ∧ c ≠ 40 ∧ c ≠ 41 ∧ c ≠ 124 ∧ c ≠ 63 ∧ c ≠ 43 ∧ c ≠ 42 ∧ c ≠ 92 := by
  simpa [special] using h

theorem notSpecial_mult {c : Nat} (h : c ∉ special) : isMult c = false := by
  cases hm : isMult c with
  | false => rfl
  | true => exact absurd (isMeta_iff.mp (isMult_meta hm)) h

theorem isMult_iff {c : Nat} : isMult c = true ↔ c = 42 ∨ c = 43 ∨ c = 63 := by
  simp [isMult]; omega

/-! ### The parser's trees come from the grammar -/

/-- A run of ordinary characters in front of a branch. -/
def runCat (w : List Nat) (b : Rx) : Rx := w.foldr (fun c r => .cat (.chr c) r) b

theorem runCat_syn {w t : List Nat} {b : Rx} {n m : Nat} (hw : ∀ c ∈ w, c ∉ special) (h : Syn .branch t b n m) : Syn .branch (w ++ t) (runCat w b) n m := by
  induction w with
  | nil => exact h
  | cons c w ih => exact .cons (s := [c]) (.one (.chr (hw c (by simp)))) (ih (fun d hd => hw d (by simp [hd])))

theorem runCat_outs (w : List Nat) (b : Rx) (n : Nat) (u : List Nat) : outs n (runCat w b).toRe u = andThen (outs n (.lit w) u) (outs n b.toRe) := by
  induction w generalizing u with
  | nil => rw [outs_lit_nil, andThen_one]; rfl
  | cons c w ih =>
    rw [show c :: w = [c] ++ w from rfl, outs_lit_append, andThen_assoc]
    have : outs n (runCat ([c] ++ w) b).toRe u = andThen (outs n (.lit [c]) u) (outs n (runCat w b).toRe) := rfl
    rw [this]
    exact andThen_congr (fun p _ => ih p.1)

theorem runCat_width (w : List Nat) (b : Rx) : (runCat w b).toRe.width = (decide (w ≠ []) || b.toRe.width) := by
  cases w with
  | nil => rfl
  | cons c w => simp [runCat, Rx.toRe, width]

/-- What the parser of an atom may return. -/
def AtomRes (t : List Nat) (np : Nat) (r : Re) (t' : List Nat) (np' : Nat) : Prop :=
  (∃ w, r = .lit w ∧ 2 ≤ w.length ∧ (∀ c ∈ w, c ∉ special) ∧ t = w ++ t' ∧ np' = np ∧ (∀ c v, t' = c :: v → isMult c = false)) ∨
  (∃ x rx, t = x ++ t' ∧ Syn .atom x rx np np' ∧ Same r rx)

def SoundGroup (preg : List Nat → Nat → PRes) : Prop :=
  ∀ t np r t' np', preg t np = some (r, t', np') → ∃ x rx, (40 :: t) = x ++ t' ∧ Syn .atom x rx np np' ∧ Same r rx

theorem takeWhile_spec (p : Nat → Bool) (t : List Nat) : ∃ v, t = t.takeWhile p ++ v ∧ (∀ c ∈ t.takeWhile p, p c = true) ∧ (∀ c v', v = c :: v' → p c = false) := by
  induction t with
  | nil => exact ⟨[], by simp⟩
  | cons c t ih =>
    by_cases h : p c = true
    · obtain ⟨v, h1, h2, h3⟩ := ih
      refine ⟨v, ?_, ?_, h3⟩
      · simp [List.takeWhile_cons, h, ← h1]
      · intro d hd; simp [List.takeWhile_cons, h] at hd; rcases hd with rfl | hd
        · exact h
        · exact h2 d (by simpa using hd)
    · refine ⟨c :: t, by simp [List.takeWhile_cons, h], by simp [List.takeWhile_cons, h], ?_⟩
      intro d v' he; cases he; simpa using h

/-- What is taken as a run. -/
theorem runLength_spec (t : List Nat) : ∃ w v, t = w ++ v ∧ runLength t = w.length ∧ (∀ c ∈ w, c ∉ special) ∧
    (2 ≤ w.length → ∀ c v', v = c :: v' → isMult c = false) := by
  obtain ⟨v, h1, h2, h3⟩ := takeWhile_spec (fun c => !isMeta c) t
  generalize hw : t.takeWhile (fun c => !isMeta c) = w at h1 h2
  have hns : ∀ c ∈ w, c ∉ special := fun c hc => isMeta_false.mp (by simpa using h2 c hc)
  have hlen : runLength t = (match v with | e :: _ => if 1 < w.length ∧ isMult e = true then w.length - 1 else w.length | [] => w.length) := by
    simp only [runLength, hw]
    have hg : t[w.length]? = v.head? := by rw [h1]; simp [List.getElem?_append_right, List.head?_eq_getElem?]
    rw [hg]
    cases v <;> rfl
  cases v with
  | nil => exact ⟨w, [], h1, hlen, hns, by simp⟩
  | cons e v =>
    simp only at hlen
    by_cases hc : 1 < w.length ∧ isMult e = true
    · rw [if_pos hc] at hlen
      have hne : w ≠ [] := by intro h; subst h; simp at hc
      obtain ⟨x, c, rfl⟩ : ∃ x c, w = x ++ [c] := ⟨w.dropLast, w.getLast hne, (List.dropLast_concat_getLast hne).symm⟩
      refine ⟨x, c :: e :: v, by rw [h1]; simp, by rw [hlen]; simp, fun d hd => hns d (by simp [hd]), ?_⟩
      intro _ d v' he; cases he
      exact notSpecial_mult (hns c (by simp))
    · rw [if_neg hc] at hlen
      refine ⟨w, e :: v, h1, hlen, hns, ?_⟩
      intro h2' d v' he; cases he
      cases hm : isMult e with
      | false => rfl
      | true => exact absurd ⟨by omega, hm⟩ hc

theorem pAtom_sound {preg} (hp : SoundGroup preg) {t np r t' np'} (h : pAtom preg t np = some (r, t', np')) : AtomRes t np r t' np' := by
  cases t with
  | nil => simp [pAtom] at h
  | cons c t =>
    simp only [pAtom] at h
    split at h
    · rename_i hc; subst hc; cases h; exact Or.inr ⟨[94], .bol, rfl, .bol, ⟨fun _ _ => rfl, rfl⟩⟩
    split at h
    · rename_i hc; subst hc; cases h; exact Or.inr ⟨[36], .eol, rfl, .eol, ⟨fun _ _ => rfl, rfl⟩⟩
    split at h
    · rename_i hc; subst hc; cases h; exact Or.inr ⟨[46], .any, rfl, .any, ⟨fun _ _ => rfl, rfl⟩⟩
    split at h
    · rename_i hc; subst hc
      split at h
      · cases h
      · rename_i neg cs t1 hcb
        cases h
        obtain ⟨y, l, he, hh, hy, hm⟩ := classBody_sound hcb
        cases neg with
        | false => exact Or.inr ⟨91 :: y, .set false l, by simp [he], .set (hh rfl) hy, set_same hm⟩
        | true => exact Or.inr ⟨91 :: 94 :: y, .set true l, by simp [he], .notSet hy, set_same hm⟩
    split at h
    · rename_i hc; subst hc; exact Or.inr (hp _ _ _ _ _ h)
    split at h
    · cases h
    split at h
    · cases h
    split at h
    · rename_i hc; subst hc
      split at h
      · cases h
      · rename_i d v; cases h; exact Or.inr ⟨[92, d], .chr d, rfl, .escaped, ⟨fun _ _ => rfl, rfl⟩⟩
    · obtain ⟨w, v, h1, h2, h3, h4⟩ := runLength_spec (c :: t)
      rw [h2] at h
      split at h
      · cases h
      · rename_i hne
        rw [h1] at h
        simp at h
        obtain ⟨rfl, rfl, rfl⟩ := h
        by_cases hl : 2 ≤ w.length
        · exact Or.inl ⟨w, rfl, hl, h3, h1, rfl, h4 hl⟩
        · obtain ⟨d, rfl⟩ : ∃ d, w = [d] := by
            match w, hl, hne with
            | [d], _, _ => exact ⟨d, rfl⟩
            | [], _, hne => exact absurd rfl hne
            | _ :: _ :: _, hl, _ => simp at hl
          exact Or.inr ⟨[d], .chr d, h1, .chr (h3 d (by simp)), ⟨fun _ _ => rfl, rfl⟩⟩

theorem star_same {r : Re} {x : Rx} (h : Same r x) : Same (.star r) (.star x) := by
  refine ⟨fun n u => ?_, rfl⟩
  have : outs n r = outs n x.toRe := funext (h.outs n)
  simp only [outs, Rx.toRe, this]
theorem plus_same {r : Re} {x : Rx} (h : Same r x) : Same (.plus r) (.plus x) := by
  refine ⟨fun n u => ?_, rfl⟩
  have : outs n r = outs n x.toRe := funext (h.outs n)
  simp only [outs, Rx.toRe, this]
theorem opt_same {r : Re} {x : Rx} (h : Same r x) : Same (.opt r) (.opt x) := by
  refine ⟨fun n u => ?_, rfl⟩
  simp only [outs, Rx.toRe, h.outs n]

/-- What the parser of a piece may return. -/
def PieceRes (t : List Nat) (np : Nat) (r : Re) (t' : List Nat) (np' : Nat) : Prop :=
  (∃ w, r = .lit w ∧ w ≠ [] ∧ (∀ c ∈ w, c ∉ special) ∧ t = w ++ t' ∧ np' = np) ∨
  (∃ x rx, t = x ++ t' ∧ Syn .piece x rx np np' ∧ Same r rx)

theorem pPiece_sound {preg} (hp : SoundGroup preg) {t np r t' np'} (h : pPiece preg t np = some (r, t', np')) : PieceRes t np r t' np' := by
  simp only [pPiece] at h
  cases ha : pAtom preg t np with
  | none => simp [ha] at h
  | some v =>
    obtain ⟨r0, t0, np0⟩ := v
    simp only [ha] at h
    have hat := pAtom_sound hp ha
    have plain : AtomRes t np r0 t0 np0 → PieceRes t np r0 t0 np0 := by
      rintro (⟨w, h1, h2, h3, h4, h5, _⟩ | ⟨x, rx, h1, h2, h3⟩)
      · exact Or.inl ⟨w, h1, (by intro h; subst h; simp at h2), h3, h4, h5⟩
      · exact Or.inr ⟨x, rx, h1, .one h2, h3⟩
    cases t0 with
    | nil => simp at h; obtain ⟨rfl, rfl, rfl⟩ := h; exact plain hat
    | cons op t1 =>
      simp only at h
      split at h
      · simp at h; obtain ⟨rfl, rfl, rfl⟩ := h; exact plain hat
      · rename_i hop
        split at h
        · cases h
        · rename_i hw
          have hop' : isMult op = true := by simpa using hop
          rcases hat with ⟨w, h1, h2, h3, h4, h5, h6⟩ | ⟨x, rx, h1, h2, h3⟩
          · exact absurd (h6 op t1 rfl) (by simp [hop'])
          · have hq : r = quant op r0 ∧ t' = t1 ∧ np' = np0 := by
              split at h
              · split at h
                · cases h
                · simp at h; exact ⟨h.1.symm, h.2.1.symm, h.2.2.symm⟩
              · simp at h; exact ⟨h.1.symm, h.2.1, h.2.2.symm⟩
            obtain ⟨rfl, rfl, rfl⟩ := hq
            have hnn : op ≠ 63 → ¬ rx.Nullable := by
              intro ho hn
              exact hw ⟨by rw [h3.width]; exact width_iff.mpr hn, ho⟩
            right
            rcases isMult_iff.mp hop' with rfl | rfl | rfl
            · exact ⟨x ++ [42], .star rx, by simp [h1], .star h2 (hnn (by omega)), star_same h3⟩
            · exact ⟨x ++ [43], .plus rx, by simp [h1], .plus h2 (hnn (by omega)), plus_same h3⟩
            · exact ⟨x ++ [63], .opt rx, by simp [h1], .opt h2, opt_same h3⟩

/-- The text where a branch stops. -/
def Stop (t : List Nat) : Prop := t = [] ∨ ∃ c v, t = c :: v ∧ (c = 124 ∨ c = 41)

theorem pPieces_sound {preg} (hp : SoundGroup preg) : ∀ fuel acc t np acc' t' np', pPieces preg fuel acc t np = some (acc', t', np') →
    ∃ x b, t = x ++ t' ∧ Syn .branch x b np np' ∧ (∀ n u, outsO n acc' u = andThen (outsO n acc u) (outs n b.toRe)) ∧
      widthO acc' = (widthO acc || b.toRe.width) ∧ Stop t' := by
  intro fuel
  induction fuel with
  | zero => intro acc t np acc' t' np' h; simp [pPieces] at h
  | succ fuel ih =>
    intro acc t np acc' t' np' h
    have stop : Stop t → (acc = acc' ∧ t = t' ∧ np = np') → ∃ x b, t = x ++ t' ∧ Syn .branch x b np np' ∧
        (∀ n u, outsO n acc' u = andThen (outsO n acc u) (outs n b.toRe)) ∧ widthO acc' = (widthO acc || b.toRe.width) ∧ Stop t' := by
      rintro hs ⟨rfl, rfl, rfl⟩
      refine ⟨[], .eps, rfl, .empty, fun n u => ?_, by simp [Rx.toRe, width], hs⟩
      exact (andThen_id _).symm
    cases t with
    | nil => simp [pPieces] at h; exact stop (Or.inl rfl) ⟨h.1, h.2.1.symm, h.2.2⟩
    | cons c t =>
      simp only [pPieces] at h
      split at h
      · rename_i hc; simp at h; exact stop (Or.inr ⟨c, t, rfl, hc⟩) ⟨h.1, h.2.1, h.2.2⟩
      · cases hq : pPiece preg (c :: t) np with
        | none => simp [hq] at h
        | some v =>
          obtain ⟨q, t1, np1⟩ := v
          simp only [hq] at h
          obtain ⟨x, b, h1, h2, h3, h4, h5⟩ := ih _ _ _ _ _ _ h
          rcases pPiece_sound hp hq with ⟨w, e1, e2, e3, e4, rfl⟩ | ⟨y, rx, e1, e2, e3⟩
          · refine ⟨w ++ x, runCat w b, by rw [e4, h1]; simp, runCat_syn e3 h2, fun n u => ?_, ?_, h5⟩
            · rw [h3]
              show andThen (outs n (joinP acc q) u) _ = _
              rw [outs_joinP, e1, andThen_assoc]
              exact andThen_congr (fun p _ => (runCat_outs w b n p.1).symm)
            · rw [h4]
              show ((joinP acc q).width || _) = _
              rw [width_joinP, runCat_width, e1]
              simp [width, e2]
          · refine ⟨y ++ x, .cat rx b, by rw [e1, h1]; simp, .cons e2 h2, fun n u => ?_, ?_, h5⟩
            · rw [h3]
              show andThen (outs n (joinP acc q) u) _ = _
              rw [outs_joinP, andThen_assoc]
              refine andThen_congr (fun p _ => ?_)
              simp only [e3.outs n p.1]; rfl
            · rw [h4]
              show ((joinP acc q).width || _) = _
              rw [width_joinP, e3.width]; simp [Rx.toRe, width, Bool.or_assoc]

theorem pBranch_sound {preg} (hp : SoundGroup preg) {t np r t' np'} (h : pBranch preg t np = some (r, t', np')) :
    ∃ x b, t = x ++ t' ∧ Syn .branch x b np np' ∧ Same r b ∧ Stop t' := by
  simp only [pBranch] at h
  cases hq : pPieces preg (t.length + 1) none t np with
  | none => simp [hq] at h
  | some v =>
    obtain ⟨acc, t1, np1⟩ := v
    simp [hq] at h
    obtain ⟨rfl, rfl, rfl⟩ := h
    obtain ⟨x, b, h1, h2, h3, h4, h5⟩ := pPieces_sound hp _ _ _ _ _ _ _ hq
    refine ⟨x, b, h1, h2, ⟨fun n u => ?_, ?_⟩, h5⟩
    · have := h3 n u
      rw [show outsO n none u = [(u, [])] from rfl, andThen_one] at this
      rw [← this]; cases acc <;> rfl
    · have : widthO acc = b.toRe.width := by simpa [widthO] using h4
      rw [← this]; cases acc <;> rfl

/-- The text where alternatives stop. -/
def StopG (t : List Nat) : Prop := t = [] ∨ ∃ v, t = 41 :: v

theorem pAlts_sound {preg} (hp : SoundGroup preg) : ∀ fuel acc t np r t' np', AltChain acc → Stop t → pAlts preg fuel acc t np = some (r, t', np') →
    StopG t' ∧ AltChain r ∧ ((r = acc ∧ t' = t ∧ np' = np) ∨
    ∃ x e, t = 124 :: x ++ t' ∧ Syn .expr x e np np' ∧ (∀ n u, outs n r u = outs n acc u ++ outs n e.toRe u) ∧ r.width = (acc.width && e.toRe.width)) := by
  intro fuel
  induction fuel with
  | zero => intro acc t np r t' np' _ _ h; simp [pAlts] at h
  | succ fuel ih =>
    intro acc t np r t' np' hc hs h
    rcases hs with rfl | ⟨c, v, rfl, rfl | rfl⟩
    · simp [pAlts] at h; obtain ⟨rfl, rfl, rfl⟩ := h; exact ⟨Or.inl rfl, hc, Or.inl ⟨rfl, rfl, rfl⟩⟩
    · simp only [pAlts] at h
      cases hq : pBranch preg v np with
      | none => simp [hq] at h
      | some w =>
        obtain ⟨b, t1, np1⟩ := w
        simp only [hq] at h
        obtain ⟨x, bx, h1, h2, h3, h4⟩ := pBranch_sound hp hq
        obtain ⟨s1, s2, s3⟩ := snocAlt_sem (b := b) hc
        obtain ⟨g1, g2, g3⟩ := ih _ _ _ _ _ _ s1 h4 h
        refine ⟨g1, g2, Or.inr ?_⟩
        rcases g3 with ⟨rfl, rfl, rfl⟩ | ⟨y, e, k1, k2, k3, k4⟩
        · refine ⟨x, bx, by rw [h1]; rfl, .last h2, fun n u => ?_, ?_⟩
          · rw [s2, h3.outs]
          · rw [s3, h3.width]
        · refine ⟨x ++ 124 :: y, .alt bx e, by rw [h1, k1]; simp, .alt h2 k2, fun n u => ?_, ?_⟩
          · rw [k3, s2, h3.outs, List.append_assoc]; rfl
          · rw [k4, s3, h3.width]; simp [Rx.toRe, width, Bool.and_assoc]
    · simp [pAlts] at h; obtain ⟨rfl, rfl, rfl⟩ := h; exact ⟨Or.inr ⟨_, rfl⟩, hc, Or.inl ⟨rfl, rfl, rfl⟩⟩

theorem pAll_sound {preg} (hp : SoundGroup preg) {t np r t' np'} (h : pAll preg t np = some (r, t', np')) :
    ∃ x e, t = x ++ t' ∧ Syn .expr x e np np' ∧ Same r e := by
  simp only [pAll] at h
  cases hq : pBranch preg t np with
  | none => simp [hq] at h
  | some w =>
    obtain ⟨b, t1, np1⟩ := w
    simp only [hq] at h
    obtain ⟨x, bx, h1, h2, h3, h4⟩ := pBranch_sound hp hq
    obtain ⟨-, -, g3⟩ := pAlts_sound hp _ _ _ _ _ _ _ (show AltChain (.last b) from trivial) h4 h
    rcases g3 with ⟨rfl, rfl, rfl⟩ | ⟨y, e, k1, k2, k3, k4⟩
    · exact ⟨x, bx, h1, .last h2, ⟨fun n u => h3.outs n u, h3.width⟩⟩
    · refine ⟨x ++ 124 :: y, .alt bx e, by rw [h1, k1]; simp, .alt h2 k2, ⟨fun n u => ?_, ?_⟩⟩
      · rw [k3]; show outs n b u ++ _ = _; rw [h3.outs]; rfl
      · rw [k4]; show (b.width && _) = _; rw [h3.width]; rfl

theorem pGroup_sound : ∀ k, SoundGroup (pGroup k) := by
  intro k
  induction k with
  | zero => intro t np r t' np' h; simp [pGroup] at h
  | succ k ih =>
    intro t np r t' np' h
    simp only [pGroup] at h
    split at h
    · cases h
    · rename_i hnp
      split at h
      · rename_i r0 t0 np0 hq
        simp at h
        obtain ⟨rfl, rfl, rfl⟩ := h
        obtain ⟨x, e, h1, h2, h3⟩ := pAll_sound ih hq
        refine ⟨40 :: x ++ [41], .group np e, by rw [h1]; simp, .group (by omega) h2, ⟨fun n u => ?_, h3.width⟩⟩
        simp only [outs, Rx.toRe, h3.outs]
      · cases h

/-- What the parser accepts is a regular expression. -/
theorem parse_sound {exp : List Nat} {r : Re} (h : parse exp = some r) : ∃ e, IsRegex exp e ∧ Same r e := by
  simp only [parse] at h
  split at h
  · rename_i r0 np hq
    cases h
    obtain ⟨x, e, h1, h2, h3⟩ := pAll_sound (pGroup_sound 10) hq
    exact ⟨e, ⟨np, by rw [h1]; simpa using h2⟩, h3⟩
  · cases h

end Vital.Regex
