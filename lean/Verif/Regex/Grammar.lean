/-
  Specification of regular expressions, independent of the compiler: the syntax as a grammar on characters, what an expression matches
  by position in the text, and the order in which the ways to match are preferred.
  The meaning of the operators is the documentation in vital/kwiversys/RegularExpression.hxx.in:80-102; the alternative `|`, the escape `\`
  and the details of classes are not documented there and are those of Henry Spencer's library.
-/
import Verif.Regex.Spec

namespace Vital.Regex

/-- Expressions. A class is a list of ranges of characters. -/
inductive Rx where
  | chr (c : Nat)
  | any
  | set (neg : Bool) (ranges : List (Nat × Nat))
  | bol
  | eol
  | eps
  | group (no : Nat) (r : Rx)
  | star (r : Rx)
  | plus (r : Rx)
  | opt (r : Rx)
  | cat (a b : Rx)
  | alt (a b : Rx)

namespace Rx

/-- Is a character in one of the ranges? -/
def inRanges (l : List (Nat × Nat)) (c : Nat) : Prop := ∃ p ∈ l, p.1 ≤ c ∧ c ≤ p.2

/-- The expression matches the characters of `text` from position `i` up to position `j`. -/
inductive M (text : List Nat) : Rx → Nat → Nat → Prop where
  | chr {c i} : text[i]? = some c → M text (.chr c) i (i + 1)
  | any {i} : i < text.length → M text .any i (i + 1)
  | setIn {l c i} : text[i]? = some c → inRanges l c → M text (.set false l) i (i + 1)
  | setOut {l c i} : text[i]? = some c → ¬ inRanges l c → M text (.set true l) i (i + 1)
  | bol : M text .bol 0 0
  | eol : M text .eol text.length text.length
  | eps {i} : i ≤ text.length → M text .eps i i
  | group {no r i j} : M text r i j → M text (.group no r) i j
  | star0 {r i} : i ≤ text.length → M text (.star r) i i
  | star {r i j k} : M text r i j → M text (.star r) j k → M text (.star r) i k
  | plus {r i j k} : M text r i j → M text (.star r) j k → M text (.plus r) i k
  | opt0 {r i} : i ≤ text.length → M text (.opt r) i i
  | opt {r i j} : M text r i j → M text (.opt r) i j
  | cat {a b i j k} : M text a i j → M text b j k → M text (.cat a b) i k
  | altl {a b i j} : M text a i j → M text (.alt a b) i j
  | altr {a b i j} : M text b i j → M text (.alt a b) i j

/-- Might match no characters, as far as the form shows. (The grammar allows `+` only on expressions that are not nullable.) -/
inductive Nullable : Rx → Prop where
  | bol : Nullable .bol
  | eol : Nullable .eol
  | eps : Nullable .eps
  | group {no r} : Nullable r → Nullable (.group no r)
  | star {r} : Nullable (.star r)
  | opt {r} : Nullable (.opt r)
  | cat {a b} : Nullable a → Nullable b → Nullable (.cat a b)
  | altl {a b} : Nullable a → Nullable (.alt a b)
  | altr {a b} : Nullable b → Nullable (.alt a b)

end Rx

/-- The special characters `^ $ . [ ( ) | ? + * \`. -/
def special : List Nat := [94, 36, 46, 91, 40, 41, 124, 63, 43, 42, 92]

/-- The rest of a class up to its closing bracket, after a character `p`: a single character, the end of a range that starts with `p`, or
    a last dash. -/
inductive ClassRest : Nat → List Nat → List (Nat × Nat) → Prop where
  | close {p} : ClassRest p [93] []
  | dash {p} : ClassRest p [45, 93] [(45, 45)]
  | range {p h t l} : h ≠ 93 → p ≤ h → ClassRest h t l → ClassRest p (45 :: h :: t) ((p, h) :: l)
  | one {p c t l} : c ≠ 93 → c ≠ 45 → ClassRest c t l → ClassRest p (c :: t) ((c, c) :: l)

/-- A class after its opening bracket (and `^`): the first character stands for itself, whatever it is. -/
inductive ClassText : List Nat → List (Nat × Nat) → Prop where
  | mk {c t l} : ClassRest c t l → ClassText (c :: t) ((c, c) :: l)

inductive Kind where
  | atom
  | piece
  | branch
  | expr

/-- The grammar: the text of an atom, piece, branch or expression, the tree, and the number of the next group before and after it.
    An expression is one or more branches separated by `|`, a branch is a list of pieces, a piece is an atom that may be followed by one
    operator; `*` and `+` may not follow an atom that might match no characters; there are at most nine groups. -/
inductive Syn : Kind → List Nat → Rx → Nat → Nat → Prop where
  | bol {n} : Syn .atom [94] .bol n n
  | eol {n} : Syn .atom [36] .eol n n
  | any {n} : Syn .atom [46] .any n n
  | chr {c n} : c ∉ special → Syn .atom [c] (.chr c) n n
  | escaped {c n} : Syn .atom [92, c] (.chr c) n n
  | set {t l n} : t.head? ≠ some 94 → ClassText t l → Syn .atom (91 :: t) (.set false l) n n
  | notSet {t l n} : ClassText t l → Syn .atom (91 :: 94 :: t) (.set true l) n n
  | group {t r n m} : n ≤ 9 → Syn .expr t r (n + 1) m → Syn .atom (40 :: t ++ [41]) (.group n r) n m
  | one {t r n m} : Syn .atom t r n m → Syn .piece t r n m
  | star {t r n m} : Syn .atom t r n m → ¬ r.Nullable → Syn .piece (t ++ [42]) (.star r) n m
  | plus {t r n m} : Syn .atom t r n m → ¬ r.Nullable → Syn .piece (t ++ [43]) (.plus r) n m
  | opt {t r n m} : Syn .atom t r n m → Syn .piece (t ++ [63]) (.opt r) n m
  | empty {n} : Syn .branch [] .eps n n
  | cons {s t a b n m k} : Syn .piece s a n m → Syn .branch t b m k → Syn .branch (s ++ t) (.cat a b) n k
  | last {t b n m} : Syn .branch t b n m → Syn .expr t b n m
  | alt {s t a b n m k} : Syn .branch s a n m → Syn .expr t b m k → Syn .expr (s ++ 124 :: t) (.alt a b) n k

/-- The text `exp` is the regular expression `r`. -/
def IsRegex (exp : List Nat) (r : Rx) : Prop := ∃ m, Syn .expr exp r 1 m

/-! ### Preference -/

/-- A way to match: where it ends and the groups entered and left in this order. -/
abbrev Way := Nat × List Evt

/-- One after the other. -/
def seqW (l : List Way) (g : Nat → List Way) : List Way := l.flatMap (fun p => (g p.1).map (fun q => (q.1, p.2 ++ q.2)))

/-- At most so many repetitions; more are preferred to fewer. -/
def repW (f : Nat → List Way) : Nat → Nat → List Way
  | 0, i => [(i, [])]
  | k + 1, i => seqW (f i) (repW f k) ++ [(i, [])]

/-- The ways to match from position `i`, preferred ones first: alternatives from left to right, as many repetitions as possible, an
    optional part present rather than absent, with earlier choices more important than later ones. -/
def ways (text : List Nat) : Rx → Nat → List Way
  | .chr c, i => if text[i]? = some c then [(i + 1, [])] else []
  | .any, i => if i < text.length then [(i + 1, [])] else []
  | .set neg l, i =>
    match text[i]? with
    | none => []
    | some c => if (l.any (fun p => decide (p.1 ≤ c) && decide (c ≤ p.2))) = !neg then [(i + 1, [])] else []
  | .bol, i => if i = 0 then [(i, [])] else []
  | .eol, i => if i = text.length then [(i, [])] else []
  | .eps, i => [(i, [])]
  | .group no r, i => (ways text r i).map (fun p => (p.1, .opn no i :: p.2 ++ [.cls no p.1]))
  | .star r, i => repW (ways text r) (text.length - i) i
  | .plus r, i => seqW (ways text r i) (fun j => repW (ways text r) (text.length - j) j)
  | .opt r, i => ways text r i ++ [(i, [])]
  | .cat a b, i => seqW (ways text a i) (ways text b)
  | .alt a b, i => ways text a i ++ ways text b i

/-! ### From these trees to those of the compiler -/

/-- The characters of a class. -/
def rangeChars (l : List (Nat × Nat)) : List Nat := l.flatMap (fun p => byteRange p.1 p.2)

def Rx.toRe : Rx → Re
  | .chr c => .lit [c]
  | .any => .any
  | .set neg l => .set neg (rangeChars l)
  | .bol => .bol
  | .eol => .eol
  | .eps => .nothing
  | .group no r => .group no r.toRe
  | .star r => .star r.toRe
  | .plus r => .plus r.toRe
  | .opt r => .opt r.toRe
  | .cat a b => .cat a.toRe b.toRe
  | .alt a b => .alt a.toRe b.toRe

theorem mem_byteRange {lo hi c : Nat} : c ∈ byteRange lo hi ↔ lo ≤ c ∧ c ≤ hi := by
  simp only [byteRange, List.mem_map, List.mem_range]
  constructor
  · rintro ⟨i, hi, rfl⟩; omega
  · intro h; exact ⟨c - lo, by omega, by omega⟩

theorem mem_rangeChars {l : List (Nat × Nat)} {c : Nat} : c ∈ rangeChars l ↔ Rx.inRanges l c := by
  simp only [rangeChars, List.mem_flatMap, mem_byteRange, Rx.inRanges]

theorem any_iff {l : List (Nat × Nat)} {c : Nat} : (l.any (fun p => decide (p.1 ≤ c) && decide (c ≤ p.2))) = (rangeChars l).contains c := by
  rw [Bool.eq_iff_iff]
  simp only [List.any_eq_true, Bool.and_eq_true, decide_eq_true_eq, List.contains_iff_mem, mem_rangeChars, Rx.inRanges]

theorem width_iff {r : Rx} : r.toRe.width = false ↔ r.Nullable := by
  induction r with
  | chr c => simp only [Rx.toRe, Re.width]; exact ⟨(fun h => by cases h), (fun h => by cases h)⟩
  | any => simp only [Rx.toRe, Re.width]; exact ⟨(fun h => by cases h), (fun h => by cases h)⟩
  | set neg l => simp only [Rx.toRe, Re.width]; exact ⟨(fun h => by cases h), (fun h => by cases h)⟩
  | bol => exact ⟨fun _ => .bol, fun _ => rfl⟩
  | eol => exact ⟨fun _ => .eol, fun _ => rfl⟩
  | eps => exact ⟨fun _ => .eps, fun _ => rfl⟩
  | group no r ih =>
    simp only [Rx.toRe, Re.width]
    exact ⟨fun h => .group (ih.mp h), fun h => by cases h with | group h => exact ih.mpr h⟩
  | star r ih => exact ⟨fun _ => .star, fun _ => rfl⟩
  | opt r ih => exact ⟨fun _ => .opt, fun _ => rfl⟩
  | plus r ih => simp only [Rx.toRe, Re.width]; exact ⟨(fun h => by cases h), (fun h => by cases h)⟩
  | cat a b iha ihb =>
    simp only [Rx.toRe, Re.width, Bool.or_eq_false_iff, iha, ihb]
    exact ⟨fun h => .cat h.1 h.2, fun h => by cases h with | cat h1 h2 => exact ⟨h1, h2⟩⟩
  | alt a b iha ihb =>
    simp only [Rx.toRe, Re.width, Bool.and_eq_false_iff, iha, ihb]
    exact ⟨fun h => h.elim .altl .altr, fun h => by cases h with | altl h => exact Or.inl h | altr h => exact Or.inr h⟩

/-! ### The ways by position are the ways by rest of the text -/

/-- The rest of the text after a way to match. -/
def wayOut (text : List Nat) (p : Way) : Out := (text.drop p.1, p.2)

theorem seqW_out {text : List Nat} {l : List Way} {g : Nat → List Way} {G : List Nat → List Out}
    (h : ∀ p ∈ l, (g p.1).map (wayOut text) = G (text.drop p.1)) :
    (seqW l g).map (wayOut text) = andThen (l.map (wayOut text)) G := by
  induction l with
  | nil => rfl
  | cons p l ih =>
    have h1 : seqW (p :: l) g = (g p.1).map (fun q => (q.1, p.2 ++ q.2)) ++ seqW l g := rfl
    have h2 : andThen ((p :: l).map (wayOut text)) G = (G (text.drop p.1)).map (fun q => (q.1, p.2 ++ q.2)) ++ andThen (l.map (wayOut text)) G := rfl
    rw [h1, h2, List.map_append, ih (fun q hq => h q (by simp [hq])), ← h p (by simp)]
    simp [wayOut, Function.comp_def]

theorem mem_seqW {l : List Way} {g : Nat → List Way} {x : Way} :
    x ∈ seqW l g ↔ ∃ p ∈ l, ∃ q ∈ g p.1, x = (q.1, p.2 ++ q.2) := by
  simp only [seqW, List.mem_flatMap, List.mem_map]
  constructor
  · rintro ⟨p, hp, q, hq, rfl⟩; exact ⟨p, hp, q, hq, rfl⟩
  · rintro ⟨p, hp, q, hq, rfl⟩; exact ⟨p, hp, q, hq, rfl⟩

theorem repW_range {text : List Nat} {f : Nat → List Way} (hf : ∀ i, i ≤ text.length → ∀ p ∈ f i, i ≤ p.1 ∧ p.1 ≤ text.length) :
    ∀ k i, i ≤ text.length → ∀ p ∈ repW f k i, i ≤ p.1 ∧ p.1 ≤ text.length := by
  intro k
  induction k with
  | zero => intro i hi p hp; simp [repW] at hp; subst hp; exact ⟨Nat.le_refl _, hi⟩
  | succ k ih =>
    intro i hi p hp
    simp only [repW, List.mem_append, mem_seqW, List.mem_singleton] at hp
    rcases hp with ⟨a, ha, b, hb, rfl⟩ | rfl
    · have h1 := hf i hi a ha
      have h2 := ih a.1 h1.2 b hb
      exact ⟨Nat.le_trans h1.1 h2.1, h2.2⟩
    · exact ⟨Nat.le_refl _, hi⟩

/-- Ways to match end inside the text, not before their start. -/
theorem ways_range {text : List Nat} (r : Rx) : ∀ i, i ≤ text.length → ∀ p ∈ ways text r i, i ≤ p.1 ∧ p.1 ≤ text.length := by
  have at1 : ∀ {i c}, text[i]? = some c → i + 1 ≤ text.length := fun h => by
    rcases Nat.lt_or_ge _ text.length with h' | h'
    · exact h'
    · rw [List.getElem?_eq_none h'] at h; cases h
  induction r with
  | chr c =>
    intro i hi p hp; simp only [ways] at hp; split at hp
    · rename_i h; simp at hp; subst hp; exact ⟨by simp, at1 h⟩
    · simp at hp
  | any =>
    intro i hi p hp; simp only [ways] at hp; split at hp
    · rename_i h; simp at hp; subst hp; exact ⟨by simp, h⟩
    · simp at hp
  | set neg l =>
    intro i hi p hp; simp only [ways] at hp; split at hp
    · simp at hp
    · rename_i h; split at hp
      · simp at hp; subst hp; exact ⟨by simp, at1 h⟩
      · simp at hp
  | bol =>
    intro i hi p hp; simp only [ways] at hp; split at hp
    · simp at hp; subst hp; exact ⟨Nat.le_refl _, hi⟩
    · simp at hp
  | eol =>
    intro i hi p hp; simp only [ways] at hp; split at hp
    · simp at hp; subst hp; exact ⟨Nat.le_refl _, hi⟩
    · simp at hp
  | eps => intro i hi p hp; simp [ways] at hp; subst hp; exact ⟨Nat.le_refl _, hi⟩
  | group no r ih =>
    intro i hi p hp; simp only [ways, List.mem_map] at hp
    obtain ⟨q, hq, rfl⟩ := hp
    exact ih i hi q hq
  | star r ih => intro i hi p hp; exact repW_range ih _ i hi p hp
  | plus r ih =>
    intro i hi p hp; simp only [ways, mem_seqW] at hp
    obtain ⟨a, ha, b, hb, rfl⟩ := hp
    have h1 := ih i hi a ha
    have h2 := repW_range ih _ a.1 h1.2 b hb
    exact ⟨Nat.le_trans h1.1 h2.1, h2.2⟩
  | opt r ih =>
    intro i hi p hp; simp only [ways, List.mem_append, List.mem_singleton] at hp
    rcases hp with hp | rfl
    · exact ih i hi p hp
    · exact ⟨Nat.le_refl _, hi⟩
  | cat a b iha ihb =>
    intro i hi p hp; simp only [ways, mem_seqW] at hp
    obtain ⟨x, hx, y, hy, rfl⟩ := hp
    have h1 := iha i hi x hx
    have h2 := ihb x.1 h1.2 y hy
    exact ⟨Nat.le_trans h1.1 h2.1, h2.2⟩
  | alt a b iha ihb =>
    intro i hi p hp; simp only [ways, List.mem_append] at hp
    exact hp.elim (iha i hi p) (ihb i hi p)

theorem drop_cons_iff {text : List Nat} {i c : Nat} {v : List Nat} : text.drop i = c :: v ↔ text[i]? = some c ∧ v = text.drop (i + 1) := by
  constructor
  · intro h
    have h0 : (text.drop i)[0]? = some c := by rw [h]; rfl
    rw [List.getElem?_drop] at h0
    have h1 : (text.drop i).drop 1 = v := by rw [h]; rfl
    rw [List.drop_drop] at h1
    exact ⟨by simpa using h0, by rw [← h1]⟩
  · rintro ⟨h, rfl⟩
    have hlt : i < text.length := by
      rcases Nat.lt_or_ge i text.length with h' | h'
      · exact h'
      · rw [List.getElem?_eq_none h'] at h; cases h
    rw [List.drop_eq_getElem_cons hlt]
    rw [List.getElem?_eq_getElem hlt] at h
    cases h; rfl

theorem repW_out {text : List Nat} {f : Nat → List Way} {F : List Nat → List Out}
    (hr : ∀ i, i ≤ text.length → ∀ p ∈ f i, i ≤ p.1 ∧ p.1 ≤ text.length)
    (h : ∀ i, i ≤ text.length → (f i).map (wayOut text) = F (text.drop i)) :
    ∀ k i, i ≤ text.length → (repW f k i).map (wayOut text) = rep F k (text.drop i) := by
  intro k
  induction k with
  | zero => intro i _; rfl
  | succ k ih =>
    intro i hi
    simp only [repW, rep, List.map_append]
    rw [seqW_out (G := rep F k) (fun p hp => ih p.1 (hr i hi p hp).2), h i hi]
    rfl

/-- The same ways in the same order. -/
theorem ways_outs {text : List Nat} (r : Rx) : ∀ i, i ≤ text.length →
    (ways text r i).map (wayOut text) = outs text.length r.toRe (text.drop i) := by
  have hn : ∀ i, i ≤ text.length → ((text.drop i).length = text.length ↔ i = 0) := fun i hi => by simp only [List.length_drop]; omega
  induction r with
  | chr c =>
    intro i hi
    simp only [ways, Rx.toRe, outs]
    by_cases h : text[i]? = some c
    · have hd := drop_cons_iff.mpr ⟨h, rfl⟩
      rw [if_pos h, hd]; simp [wayOut]
    · rw [if_neg h, if_neg]; · rfl
      intro hp
      cases hd : text.drop i with
      | nil => rw [hd] at hp; simp at hp
      | cons a v =>
        rw [hd] at hp; simp at hp; subst hp
        exact h (drop_cons_iff.mp hd).1
  | any =>
    intro i hi
    simp only [ways, Rx.toRe, outs]
    by_cases h : i < text.length
    · have hd := List.drop_eq_getElem_cons h
      rw [if_pos h, hd]; simp [wayOut]
    · have hd : text.drop i = [] := by simp; omega
      rw [if_neg h, hd]; rfl
  | set neg l =>
    intro i hi
    simp only [ways, Rx.toRe, outs, any_iff]
    cases hc : text[i]? with
    | none =>
      have hd : text.drop i = [] := by simpa using hc
      rw [hd]; rfl
    | some c =>
      have hd := drop_cons_iff.mpr ⟨hc, rfl⟩
      rw [hd]; simp only
      split <;> simp [wayOut]
  | bol =>
    intro i hi
    simp only [ways, Rx.toRe, outs, hn i hi]
    split <;> simp [wayOut]
  | eol =>
    intro i hi
    simp only [ways, Rx.toRe, outs]
    have : text.drop i = [] ↔ i = text.length := by simp; omega
    simp only [this]
    split <;> simp [wayOut]
  | eps => intro i hi; simp [ways, Rx.toRe, outs, wayOut]
  | group no r ih =>
    intro i hi
    simp only [ways, Rx.toRe, outs, ← ih i hi, List.map_map]
    apply List.map_congr_left
    intro p hp
    have := ways_range r i hi p hp
    simp only [Function.comp, wayOut, List.length_drop]
    rw [show text.length - (text.length - i) = i by omega, show text.length - (text.length - p.1) = p.1 by omega]
  | star r ih =>
    intro i hi
    simp only [ways, Rx.toRe, outs]
    rw [repW_out (ways_range r) ih _ i hi]; simp
  | plus r ih =>
    intro i hi
    simp only [ways, Rx.toRe, outs, ← ih i hi]
    rw [seqW_out]
    intro p hp
    have := ways_range r i hi p hp
    rw [repW_out (ways_range r) ih _ p.1 this.2]; simp
  | opt r ih => intro i hi; simp only [ways, Rx.toRe, outs, List.map_append, ih i hi]; rfl
  | cat a b iha ihb =>
    intro i hi
    simp only [ways, Rx.toRe, outs, ← iha i hi]
    rw [seqW_out]
    intro p hp
    exact ihb p.1 (ways_range a i hi p hp).2
  | alt a b iha ihb => intro i hi; simp only [ways, Rx.toRe, outs, List.map_append, iha i hi, ihb i hi]

/-- A match in the sense of positions. -/
theorem M_range {text : List Nat} {r : Rx} {i j : Nat} (h : Rx.M text r i j) : i ≤ j ∧ j ≤ text.length := by
  have at1 : ∀ {i c}, text[i]? = some c → i + 1 ≤ text.length := fun h => by
    rcases Nat.lt_or_ge _ text.length with h' | h'
    · exact h'
    · rw [List.getElem?_eq_none h'] at h; cases h
  induction h with
  | chr h => exact ⟨by omega, at1 h⟩
  | any h => exact ⟨by omega, h⟩
  | setIn h _ => exact ⟨by omega, at1 h⟩
  | setOut h _ => exact ⟨by omega, at1 h⟩
  | _ => omega

theorem repW_M {text : List Nat} {r : Rx} (h : ∀ i, i ≤ text.length → ∀ p ∈ ways text r i, Rx.M text r i p.1) :
    ∀ k i, i ≤ text.length → ∀ p ∈ repW (ways text r) k i, Rx.M text (.star r) i p.1 := by
  intro k
  induction k with
  | zero => intro i hi p hp; simp [repW] at hp; subst hp; exact .star0 hi
  | succ k ih =>
    intro i hi p hp
    simp only [repW, List.mem_append, mem_seqW, List.mem_singleton] at hp
    rcases hp with ⟨a, ha, b, hb, rfl⟩ | rfl
    · exact .star (h i hi a ha) (ih a.1 (ways_range r i hi a ha).2 b hb)
    · exact .star0 hi

/-- Every way to match is a match. -/
theorem ways_M {text : List Nat} (r : Rx) : ∀ i, i ≤ text.length → ∀ p ∈ ways text r i, Rx.M text r i p.1 := by
  induction r with
  | chr c =>
    intro i hi p hp; simp only [ways] at hp; split at hp
    · rename_i h; simp at hp; subst hp; exact .chr h
    · simp at hp
  | any =>
    intro i hi p hp; simp only [ways] at hp; split at hp
    · rename_i h; simp at hp; subst hp; exact .any h
    · simp at hp
  | set neg l =>
    intro i hi p hp; simp only [ways, any_iff] at hp; split at hp
    · simp at hp
    · rename_i c h; split at hp
      · rename_i hc
        simp at hp; subst hp
        cases neg with
        | false => exact .setIn h (mem_rangeChars.mp (by simpa using hc))
        | true => exact .setOut h (fun hr => by simp [mem_rangeChars, hr] at hc)
      · simp at hp
  | bol =>
    intro i hi p hp; simp only [ways] at hp; split at hp
    · rename_i h; subst h; simp at hp; subst hp; exact .bol
    · simp at hp
  | eol =>
    intro i hi p hp; simp only [ways] at hp; split at hp
    · rename_i h; subst h; simp at hp; subst hp; exact .eol
    · simp at hp
  | eps => intro i hi p hp; simp [ways] at hp; subst hp; exact .eps hi
  | group no r ih =>
    intro i hi p hp; simp only [ways, List.mem_map] at hp
    obtain ⟨q, hq, rfl⟩ := hp
    exact .group (ih i hi q hq)
  | star r ih => intro i hi p hp; exact repW_M ih _ i hi p hp
  | plus r ih =>
    intro i hi p hp; simp only [ways, mem_seqW] at hp
    obtain ⟨a, ha, b, hb, rfl⟩ := hp
    exact .plus (ih i hi a ha) (repW_M ih _ a.1 (ways_range r i hi a ha).2 b hb)
  | opt r ih =>
    intro i hi p hp; simp only [ways, List.mem_append, List.mem_singleton] at hp
    rcases hp with hp | rfl
    · exact .opt (ih i hi p hp)
    · exact .opt0 hi
  | cat a b iha ihb =>
    intro i hi p hp; simp only [ways, mem_seqW] at hp
    obtain ⟨x, hx, y, hy, rfl⟩ := hp
    exact .cat (iha i hi x hx) (ihb x.1 (ways_range a i hi x hx).2 y hy)
  | alt a b iha ihb =>
    intro i hi p hp; simp only [ways, List.mem_append] at hp
    exact hp.elim (fun h => .altl (iha i hi p h)) (fun h => .altr (ihb i hi p h))

/-- Only expressions that are not nullable are repeated. -/
def Rx.Ok : Rx → Prop
  | .group _ r => r.Ok
  | .star r => ¬ r.Nullable ∧ r.Ok
  | .plus r => ¬ r.Nullable ∧ r.Ok
  | .opt r => r.Ok
  | .cat a b => a.Ok ∧ b.Ok
  | .alt a b => a.Ok ∧ b.Ok
  | _ => True

theorem Syn.ok {k : Kind} {t : List Nat} {r : Rx} {n m : Nat} (h : Syn k t r n m) : r.Ok := by
  induction h with
  | group _ _ ih => exact ih
  | one _ ih => exact ih
  | star _ hn ih => exact ⟨hn, ih⟩
  | plus _ hn ih => exact ⟨hn, ih⟩
  | opt _ ih => exact ih
  | cons _ _ ih1 ih2 => exact ⟨ih1, ih2⟩
  | last _ ih => exact ih
  | alt _ _ ih1 ih2 => exact ⟨ih1, ih2⟩
  | _ => trivial

theorem M_progress {text : List Nat} {r : Rx} {i j : Nat} (h : Rx.M text r i j) : r.Ok → ¬ r.Nullable → i < j := by
  induction h with
  | chr _ => intro _ _; omega
  | any _ => intro _ _; omega
  | setIn _ _ => intro _ _; omega
  | setOut _ _ => intro _ _; omega
  | group _ ih => intro ho hn; exact ih ho (fun h => hn (.group h))
  | plus _ h2 ih1 _ => intro ho hn; have := ih1 ho.2 ho.1; have := M_range h2; omega
  | cat h1 h2 ih1 ih2 =>
    intro ho hn
    rename_i a b i j k
    have l1 := M_range h1
    have l2 := M_range h2
    rcases Classical.em a.Nullable with ha | ha
    · rcases Classical.em b.Nullable with hb | hb
      · exact absurd (.cat ha hb) hn
      · have := ih2 ho.2 hb; omega
    · have := ih1 ho.1 ha; omega
  | altl _ ih => intro ho hn; exact ih ho.1 (fun h => hn (.altl h))
  | altr _ ih => intro ho hn; exact ih ho.2 (fun h => hn (.altr h))
  | bol => intro _ hn; exact absurd .bol hn
  | eol => intro _ hn; exact absurd .eol hn
  | eps _ => intro _ hn; exact absurd .eps hn
  | star0 _ => intro _ hn; exact absurd .star hn
  | star _ _ _ _ => intro _ hn; exact absurd .star hn
  | opt0 _ => intro _ hn; exact absurd .opt hn
  | opt _ _ => intro _ hn; exact absurd .opt hn

theorem repW_mono {f : Nat → List Way} : ∀ k i p, p ∈ repW f k i → p ∈ repW f (k + 1) i := by
  intro k
  induction k with
  | zero => intro i p hp; simp [repW] at hp; subst hp; simp [repW]
  | succ k ih =>
    intro i p hp
    rw [repW] at hp ⊢
    simp only [List.mem_append, mem_seqW, List.mem_singleton] at hp ⊢
    rcases hp with ⟨a, ha, b, hb, rfl⟩ | rfl
    · exact Or.inl ⟨a, ha, b, ih _ _ hb, rfl⟩
    · exact Or.inr rfl

theorem repW_le {f : Nat → List Way} {k l : Nat} (h : k ≤ l) {i : Nat} {p : Way} (hp : p ∈ repW f k i) : p ∈ repW f l i := by
  induction h with
  | refl => exact hp
  | step _ ih => exact repW_mono _ _ _ ih

/-- Every match is one of the ways to match. -/
theorem M_ways {text : List Nat} {r : Rx} {i j : Nat} (h : Rx.M text r i j) : r.Ok → ∃ tr, (j, tr) ∈ ways text r i := by
  induction h with
  | chr h => intro _; exact ⟨[], by simp [ways, h]⟩
  | any h => intro _; exact ⟨[], by simp [ways, h]⟩
  | setIn h hr =>
    rename_i l c i
    intro _
    have : (rangeChars l).contains c = true := by simpa using mem_rangeChars.mpr hr
    exact ⟨[], by simp only [ways, h, any_iff, this]; simp⟩
  | setOut h hr =>
    rename_i l c i
    intro _
    have : (rangeChars l).contains c = false := by simpa [mem_rangeChars] using hr
    exact ⟨[], by simp only [ways, h, any_iff, this]; simp⟩
  | bol => intro _; exact ⟨[], by simp [ways]⟩
  | eol => intro _; exact ⟨[], by simp [ways]⟩
  | eps _ => intro _; exact ⟨[], by simp [ways]⟩
  | group _ ih => intro ho; obtain ⟨tr, ht⟩ := ih ho; exact ⟨_, by simp only [ways, List.mem_map]; exact ⟨_, ht, rfl⟩⟩
  | star0 _ =>
    rename_i r i hi
    intro _
    refine ⟨[], ?_⟩
    simp only [ways]
    cases text.length - i <;> simp [repW]
  | star h1 h2 ih1 ih2 =>
    rename_i r i j k
    intro ho
    obtain ⟨t1, m1⟩ := ih1 ho.2
    obtain ⟨t2, m2⟩ := ih2 ho
    have hp := M_progress h1 ho.2 ho.1
    have hr := M_range h1
    refine ⟨t1 ++ t2, ?_⟩
    simp only [ways] at m2 ⊢
    obtain ⟨d, hd⟩ : ∃ d, text.length - i = d + 1 := ⟨text.length - i - 1, by omega⟩
    rw [hd, repW]
    exact List.mem_append_left _ (mem_seqW.mpr ⟨_, m1, _, repW_le (by omega) m2, rfl⟩)
  | plus h1 h2 ih1 ih2 =>
    intro ho
    obtain ⟨t1, m1⟩ := ih1 ho.2
    obtain ⟨t2, m2⟩ := ih2 ho
    exact ⟨t1 ++ t2, mem_seqW.mpr ⟨_, m1, _, m2, rfl⟩⟩
  | opt0 _ => intro _; exact ⟨[], by simp [ways]⟩
  | opt _ ih => intro ho; obtain ⟨t, m⟩ := ih ho; exact ⟨t, List.mem_append_left _ m⟩
  | cat _ _ ih1 ih2 =>
    intro ho
    obtain ⟨t1, m1⟩ := ih1 ho.1
    obtain ⟨t2, m2⟩ := ih2 ho.2
    exact ⟨t1 ++ t2, mem_seqW.mpr ⟨_, m1, _, m2, rfl⟩⟩
  | altl _ ih => intro ho; obtain ⟨t, m⟩ := ih ho.1; exact ⟨t, List.mem_append_left _ m⟩
  | altr _ ih => intro ho; obtain ⟨t, m⟩ := ih ho.2; exact ⟨t, List.mem_append_right _ m⟩

end Vital.Regex
