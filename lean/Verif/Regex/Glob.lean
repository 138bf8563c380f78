import Verif.Regex.Object
import Mathlib.Tactic.Tauto
/-
  Model of vital/kwiversys/Glob.cxx (PatternToRegex, AddExpression and the use of the expression); property C147.
  Characters are numbers: `!` 33, `*` 42, `-` 45, `/` 47, `?` 63, `[` 91, `\` 92, `]` 93, `^` 94.
-/
namespace Vital.Glob
open Vital.Regex

/-! ### The code -/

/-- The rest of the pattern after `[`: what is in the brackets and what comes after them. -/
-- models: vital/kwiversys/Glob.cxx:119-143, 176-177
def bracket (l : List Nat) : Option (List Nat × List Nat) :=
  let (m, l1) : List Nat × List Nat := match l with
    | [] => ([], [])
    | c :: t => if c = 33 ∨ c = 94 then ([c], t) else ([], c :: t)
  let (f, l2) : List Nat × List Nat := match l1 with
    | [] => ([], [])
    | c :: t => if c = 93 then ([c], t) else ([], c :: t)
  match l2.dropWhile (fun c => c ≠ 93) with
  | [] => none
  | _ :: rest => some (m ++ f ++ l2.takeWhile (fun c => c ≠ 93), rest)

-- models: vital/kwiversys/Glob.cxx:159-170
def esc (c : Nat) : List Nat := if c = 92 then [92, 92] else [c]

-- models: vital/kwiversys/Glob.cxx:147-173
def bracketRegex (b : List Nat) : List Nat :=
  91 :: (match b with
    | [] => []
    | c :: t => if c = 33 then 94 :: t.flatMap esc else (c :: t).flatMap esc) ++ [93]

-- models: vital/kwiversys/Glob.cxx:184-187
def alnum (c : Nat) : Bool := (97 ≤ c ∧ c ≤ 122) ∨ (65 ≤ c ∧ c ≤ 90) ∨ (48 ≤ c ∧ c ≤ 57)

/-- The loop over the pattern; the first argument bounds its rounds. (The flag preserve_case has no effect without
    KWSYS_GLOB_CASE_INDEPENDENT, which is for Windows, Apple and Cygwin.) -/
-- models: vital/kwiversys/Glob.cxx:96-211
def loop : Nat → List Nat → List Nat
  | 0, _ => []
  | _, [] => []
  | n + 1, c :: t =>
    if c = 42 then [91, 94, 47, 93, 42] ++ loop n t
    else if c = 63 then [91, 94, 47, 93] ++ loop n t
    else if c = 91 then
      match bracket t with
      | none => [92, 91] ++ loop n t
      | some (b, rest) => bracketRegex b ++ loop n rest
    else if alnum c then c :: loop n t
    else 92 :: c :: loop n t

-- models: vital/kwiversys/Glob.cxx:88-218 (Glob::PatternToRegex)
def patternToRegex (pattern : List Nat) (whole : Bool) : List Nat :=
  (if whole then [94] else []) ++ loop pattern.length pattern ++ (if whole then [36] else [])

/-! ### Specification: what a pattern means -/

inductive Tok where
  /-- any run of characters but slashes -/
  | star
  /-- any character but a slash -/
  | one
  /-- a character in one of the ranges, or (`neg`) in none -/
  | set (neg : Bool) (ranges : List (Nat × Nat))
  | chr (c : Nat)

/-- In the ranges? -/
def In (ranges : List (Nat × Nat)) (c : Nat) : Prop := ∃ p ∈ ranges, p.1 ≤ c ∧ c ≤ p.2

/-- A name matches a list of these. -/
inductive Matches : List Tok → List Nat → Prop where
  | nil : Matches [] []
  | star {l u t} : (∀ c ∈ u, c ≠ 47) → Matches l t → Matches (.star :: l) (u ++ t)
  | one {l c t} : c ≠ 47 → Matches l t → Matches (.one :: l) (c :: t)
  | set {l neg rs c t} : (neg = false ↔ In rs c) → Matches l t → Matches (.set neg rs :: l) (c :: t)
  | chr {l c t} : Matches l t → Matches (.chr c :: l) (c :: t)

/-- What is in brackets, after a character `p`: characters, and ranges from the character before a dash to the one after it; a dash at the
    end stands for itself. -/
inductive Items : Nat → List Nat → List (Nat × Nat) → Prop where
  | nil {p} : Items p [] []
  | dash {p} : Items p [45] [(45, 45)]
  | range {p h t l} : p ≤ h → Items h t l → Items p (45 :: h :: t) ((p, h) :: l)
  | one {p c t l} : c ≠ 45 → Items c t l → Items p (c :: t) ((c, c) :: l)

/-- What can follow `[`: perhaps `!` or `^`, then at least one character, then up to the next `]`. -/
structure Closed (after mark : List Nat) (c : Nat) (body rest : List Nat) : Prop where
  text : after = mark ++ c :: body ++ 93 :: rest
  mark : mark = [33] ∨ mark = [94] ∨ mark = [] ∧ c ≠ 33 ∧ c ≠ 94
  body : 93 ∉ body

/-- How a pattern is read. Only brackets with a range from a greater to a smaller character have no meaning. -/
inductive Reads : List Nat → List Tok → Prop where
  | nil : Reads [] []
  | star {p l} : Reads p l → Reads (42 :: p) (.star :: l)
  | one {p l} : Reads p l → Reads (63 :: p) (.one :: l)
  | set {p mark c body rest l rs} : Closed p mark c body rest → Items c body rs → Reads rest l →
      Reads (91 :: p) (.set (decide (mark ≠ [])) ((c, c) :: rs) :: l)
  | unclosed {p l} : (¬ ∃ mark c body rest, Closed p mark c body rest) → Reads p l → Reads (91 :: p) (.chr 91 :: l)
  | chr {c p l} : c ≠ 42 → c ≠ 63 → c ≠ 91 → Reads p l → Reads (c :: p) (.chr c :: l)

/-! ### Brackets -/

theorem span93 (l : List Nat) : (∃ rest, 93 ∉ l.takeWhile (fun c => c ≠ 93) ∧ l.dropWhile (fun c => c ≠ 93) = 93 :: rest ∧ l = l.takeWhile (fun c => c ≠ 93) ++ 93 :: rest) ∨
    (93 ∉ l ∧ l.dropWhile (fun c => c ≠ 93) = []) := by
  induction l with
  | nil => right; simp
  | cons c t ih =>
    by_cases h : c = 93
    · subst h
      left; exact ⟨t, by simp, by simp, by simp⟩
    · rcases ih with ⟨rest, h1, h2, h3⟩ | ⟨h1, h2⟩
      · left
        refine ⟨rest, ?_, ?_, ?_⟩
        · simp only [ne_eq, decide_not, List.takeWhile_cons, h, decide_false, Bool.not_false, ↓reduceIte, List.mem_cons, not_or]
          simp only [ne_eq, decide_not] at h1
          exact ⟨fun e => h e.symm, h1⟩
        · simpa [h] using h2
        · simp only [ne_eq, decide_not, List.takeWhile_cons, h, decide_false, Bool.not_false, ↓reduceIte, List.cons_append, List.cons.injEq, true_and]
          simpa using h3
      · right
        exact ⟨by simp [h1]; exact fun e => h e.symm, by simpa [h] using h2⟩

theorem split93 {a b : List Nat} {r s : List Nat} (ha : 93 ∉ a) (hb : 93 ∉ b) (h : a ++ 93 :: r = b ++ 93 :: s) : a = b ∧ r = s := by
  induction a generalizing b with
  | nil =>
    cases b with
    | nil => simpa using h
    | cons c b => simp only [List.nil_append, List.cons_append, List.cons.injEq] at h; simp [← h.1] at hb
  | cons c a ih =>
    cases b with
    | nil => simp only [List.nil_append, List.cons_append, List.cons.injEq] at h; simp [h.1] at ha
    | cons d b =>
      simp only [List.cons_append, List.cons.injEq] at h
      obtain ⟨e1, e2⟩ := ih (fun hm => ha (List.mem_cons_of_mem _ hm)) (fun hm => hb (List.mem_cons_of_mem _ hm)) h.2
      exact ⟨by rw [h.1, e1], e2⟩

/-- The rest, after mark. -/
def scan (l1 : List Nat) : Option (List Nat × List Nat) :=
  let (f, l2) : List Nat × List Nat := match l1 with
    | [] => ([], [])
    | c :: t => if c = 93 then ([c], t) else ([], c :: t)
  match l2.dropWhile (fun c => c ≠ 93) with
  | [] => none
  | _ :: rest => some (f ++ l2.takeWhile (fun c => c ≠ 93), rest)

theorem scan_cons (c : Nat) (t : List Nat) : scan (c :: t) = match t.dropWhile (fun c => c ≠ 93) with
    | [] => none
    | _ :: rest => some (c :: t.takeWhile (fun c => c ≠ 93), rest) := by
  unfold scan
  by_cases h : c = 93
  · simp [h]
  · simp only [h, ↓reduceIte, ne_eq, decide_not, List.dropWhile_cons, decide_false, Bool.not_false, List.takeWhile_cons]
    rfl

theorem scan_spec (l : List Nat) : (∃ c body rest, l = c :: body ++ 93 :: rest ∧ 93 ∉ body ∧ scan l = some (c :: body, rest)) ∨
    ((¬ ∃ c body rest, l = c :: body ++ 93 :: rest) ∧ scan l = none) := by
  cases l with
  | nil => right; exact ⟨(by rintro ⟨c, b, r, h⟩; cases h), rfl⟩
  | cons c t =>
    rw [scan_cons]
    rcases span93 t with ⟨rest, h1, h2, h3⟩ | ⟨h1, h2⟩
    · left
      refine ⟨c, _, rest, ?_, h1, ?_⟩
      · rw [List.cons_append, ← h3]
      · rw [h2]
    · right
      refine ⟨?_, by rw [h2]⟩
      rintro ⟨c', b, r, h⟩
      simp only [List.cons_append, List.cons.injEq] at h
      exact h1 (by rw [h.2]; simp)

theorem bracket_eq (l : List Nat) : bracket l = match l with
    | [] => none
    | c :: t => if c = 33 ∨ c = 94 then (scan t).map (fun x => (c :: x.1, x.2)) else scan (c :: t) := by
  cases l with
  | nil => rfl
  | cons c t =>
    by_cases h : c = 33 ∨ c = 94
    · simp only [bracket, scan, h, ↓reduceIte]
      split <;> simp_all
    · simp only [bracket, scan, h, ↓reduceIte]
      split <;> simp_all

theorem bracket_spec (l : List Nat) :
    (∃ mark c body rest, Closed l mark c body rest ∧ bracket l = some (mark ++ c :: body, rest)) ∨
    ((¬ ∃ mark c body rest, Closed l mark c body rest) ∧ bracket l = none) := by
  rw [bracket_eq]
  cases l with
  | nil =>
    right
    refine ⟨?_, rfl⟩
    rintro ⟨m, c, b, r, ⟨h, -, -⟩⟩
    simp at h
  | cons c t =>
    simp only
    by_cases h : c = 33 ∨ c = 94
    · rw [if_pos h]
      rcases scan_spec t with ⟨d, body, rest, h1, h2, h3⟩ | ⟨h1, h2⟩
      · left
        refine ⟨[c], d, body, rest, ⟨by rw [h1]; simp, by rcases h with rfl | rfl <;> simp, h2⟩, by rw [h3]; simp⟩
      · right
        refine ⟨?_, by rw [h2]; rfl⟩
        rintro ⟨m, d, b, r, ⟨e, hm, -⟩⟩
        rcases hm with rfl | rfl | ⟨rfl, hm⟩
        · simp only [List.cons_append, List.nil_append, List.cons.injEq] at e; exact h1 ⟨d, b, r, e.2⟩
        · simp only [List.cons_append, List.nil_append, List.cons.injEq] at e; exact h1 ⟨d, b, r, e.2⟩
        · simp only [List.cons_append, List.nil_append, List.cons.injEq] at e; rw [← e.1] at hm; tauto
    · rw [if_neg h]
      rcases scan_spec (c :: t) with ⟨d, body, rest, h1, h2, h3⟩ | ⟨h1, h2⟩
      · left
        have hd : c = d := by simp only [List.cons_append, List.cons.injEq] at h1; exact h1.1
        subst hd
        refine ⟨[], c, body, rest, ⟨h1, Or.inr (Or.inr ⟨rfl, by tauto⟩), h2⟩, by rw [h3]; rfl⟩
      · right
        refine ⟨?_, h2⟩
        rintro ⟨m, d, b, r, ⟨e, hm, -⟩⟩
        rcases hm with rfl | rfl | ⟨rfl, hm⟩
        · simp only [List.cons_append, List.nil_append, List.cons.injEq] at e; exact h (Or.inl e.1)
        · simp only [List.cons_append, List.nil_append, List.cons.injEq] at e; exact h (Or.inr e.1)
        · exact h1 ⟨d, b, r, e⟩

theorem Closed.shorter {l mark body rest : List Nat} {c : Nat} (h : Closed l mark c body rest) : rest.length < l.length := by
  rw [h.text]; simp; omega

theorem Closed.unique {l mark body rest mark' body' rest' : List Nat} {c c' : Nat} (h : Closed l mark c body rest) (h' : Closed l mark' c' body' rest') :
    mark = mark' ∧ c = c' ∧ body = body' ∧ rest = rest' := by
  have e := h.text.symm.trans h'.text
  rcases h.mark with rfl | rfl | ⟨rfl, h1⟩ <;> rcases h'.mark with rfl | rfl | ⟨rfl, h2⟩ <;>
    simp only [List.cons_append, List.nil_append, List.cons.injEq] at e
  · obtain ⟨e1, e2⟩ := e.2; subst e1; obtain ⟨rfl, rfl⟩ := split93 h.body h'.body e2; exact ⟨rfl, rfl, rfl, rfl⟩
  · exact absurd e.1 (by decide)
  · exact absurd e.1.symm h2.1
  · exact absurd e.1 (by decide)
  · obtain ⟨e1, e2⟩ := e.2; subst e1; obtain ⟨rfl, rfl⟩ := split93 h.body h'.body e2; exact ⟨rfl, rfl, rfl, rfl⟩
  · exact absurd e.1.symm h2.2
  · exact absurd e.1 h1.1
  · exact absurd e.1 h1.2
  · obtain ⟨rfl, e⟩ := e; obtain ⟨rfl, rfl⟩ := split93 h.body h'.body e; exact ⟨rfl, rfl, rfl, rfl⟩

/-! ### Classes: a doubled backslash changes nothing -/

theorem in_eq (l : List (Nat × Nat)) (c : Nat) : In l c ↔ Rx.inRanges l c := Iff.rfl

theorem items_class {p : Nat} {body : List Nat} {rs : List (Nat × Nat)} (h : Items p body rs) : 93 ∉ body →
    ∃ l, ClassRest p (body.flatMap esc ++ [93]) l ∧ ∀ x, In rs x ↔ In l x := by
  induction h with
  | nil => intro _; exact ⟨[], .close, fun _ => Iff.rfl⟩
  | dash => intro _; exact ⟨[(45, 45)], .dash, fun _ => Iff.rfl⟩
  | @range p h t rs hle hi ih =>
    intro hb
    simp only [List.mem_cons, not_or] at hb
    obtain ⟨l, h1, h2⟩ := ih hb.2.2
    have hne : h ≠ 93 := fun e => hb.2.1 e.symm
    by_cases e : h = 92
    · subst e
      refine ⟨(p, 92) :: (92, 92) :: l, ?_, ?_⟩
      · simp only [List.flatMap_cons, esc, ↓reduceIte, show (45 : Nat) ≠ 92 by decide]
        exact .range (by decide) hle (.one (by decide) (by decide) h1)
      · intro x
        simp only [in_eq, inRanges_cons] at h2 ⊢
        rw [h2]
        constructor
        · rintro (h | h)
          · exact .inl h
          · exact .inr (.inr h)
        · rintro (h | h | h)
          · exact .inl h
          · exact .inl (by omega)
          · exact .inr h
    · refine ⟨(p, h) :: l, ?_, ?_⟩
      · simp only [List.flatMap_cons, esc, e, ↓reduceIte, show (45 : Nat) ≠ 92 by decide]
        exact .range hne hle h1
      · intro x; simp only [in_eq, inRanges_cons] at h2 ⊢; rw [h2]
  | @one p c t rs hc hi ih =>
    intro hb
    simp only [List.mem_cons, not_or] at hb
    obtain ⟨l, h1, h2⟩ := ih hb.2
    have hne : c ≠ 93 := fun e => hb.1 e.symm
    by_cases e : c = 92
    · subst e
      refine ⟨(92, 92) :: (92, 92) :: l, ?_, ?_⟩
      · simp only [List.flatMap_cons, esc, ↓reduceIte]
        exact .one (by decide) (by decide) (.one (by decide) (by decide) h1)
      · intro x; simp only [in_eq, inRanges_cons] at h2 ⊢; rw [h2]; tauto
    · refine ⟨(c, c) :: l, ?_, ?_⟩
      · simp only [List.flatMap_cons, esc, e, ↓reduceIte]
        exact .one hne hc h1
      · intro x; simp only [in_eq, inRanges_cons] at h2 ⊢; rw [h2]

theorem one_inv {p c : Nat} {y : List Nat} {l : List (Nat × Nat)} (h : ClassRest p (c :: y) l) (h1 : c ≠ 93) (h2 : c ≠ 45) : ∃ l', ClassRest c y l' := by
  generalize e : c :: y = z at h
  cases h with
  | close => cases e; exact absurd rfl h1
  | dash => cases e; exact absurd rfl h2
  | range _ _ _ => cases e; exact absurd rfl h2
  | one _ _ h => cases e; exact ⟨_, h⟩

theorem range_inv {p d : Nat} {y : List Nat} {l : List (Nat × Nat)} (h : ClassRest p (45 :: d :: y) l) (h1 : d ≠ 93) : p ≤ d ∧ ∃ l', ClassRest d y l' := by
  generalize e : 45 :: d :: y = z at h
  cases h with
  | close => cases e
  | dash => cases e; exact absurd rfl h1
  | range _ h2 h3 => cases e; exact ⟨h2, _, h3⟩
  | one _ h2 _ => cases e; exact absurd rfl h2

theorem class_items : ∀ (n : Nat) (body : List Nat), body.length ≤ n → 93 ∉ body → ∀ (p : Nat) (l : List (Nat × Nat)),
    ClassRest p (body.flatMap esc ++ [93]) l → ∃ rs, Items p body rs := by
  intro n
  induction n with
  | zero =>
    intro body hn hb p l _
    cases body with
    | nil => exact ⟨[], .nil⟩
    | cons c t => simp at hn
  | succ n ih =>
    intro body hn hb p l h
    cases body with
    | nil => exact ⟨[], .nil⟩
    | cons c t =>
      simp only [List.mem_cons, not_or] at hb
      simp only [List.length_cons] at hn
      by_cases hc : c = 45
      · subst hc
        cases t with
        | nil => exact ⟨_, .dash⟩
        | cons d t =>
          simp only [List.mem_cons, not_or] at hb
          simp only [List.length_cons] at hn
          simp only [List.flatMap_cons, esc, show (45 : Nat) ≠ 92 by decide, ↓reduceIte, List.cons_append, List.nil_append] at h
          by_cases e : d = 92
          · subst e
            simp only [↓reduceIte, List.cons_append, List.nil_append] at h
            obtain ⟨h1, l1, h2⟩ := range_inv h (by decide)
            obtain ⟨l2, h3⟩ := one_inv h2 (by decide) (by decide)
            obtain ⟨rs, hr⟩ := ih t (by omega) hb.2.2 _ _ h3
            exact ⟨_, .range h1 hr⟩
          · simp only [e, ↓reduceIte, List.cons_append, List.nil_append] at h
            obtain ⟨h1, l1, h2⟩ := range_inv h (fun e => hb.2.1 e.symm)
            obtain ⟨rs, hr⟩ := ih t (by omega) hb.2.2 _ _ h2
            exact ⟨_, .range h1 hr⟩
      · by_cases e : c = 92
        · subst e
          simp only [List.flatMap_cons, esc, ↓reduceIte, List.cons_append, List.nil_append] at h
          obtain ⟨l1, h1⟩ := one_inv h (by decide) (by decide)
          obtain ⟨l2, h2⟩ := one_inv h1 (by decide) (by decide)
          obtain ⟨rs, hr⟩ := ih t (by omega) hb.2 _ _ h2
          exact ⟨_, .one hc hr⟩
        · simp only [List.flatMap_cons, esc, e, ↓reduceIte, List.cons_append, List.nil_append] at h
          obtain ⟨l1, h1⟩ := one_inv h (fun e => hb.1 e.symm) hc
          obtain ⟨rs, hr⟩ := ih t (by omega) hb.2 _ _ h1
          exact ⟨_, .one hc hr⟩

theorem classRest_end {p : Nat} {t : List Nat} {l : List (Nat × Nat)} (h : ClassRest p t l) : ∃ u, t = u ++ [93] ∧ 93 ∉ u := by
  induction h with
  | close => exact ⟨[], rfl, by simp⟩
  | dash => exact ⟨[45], rfl, by simp⟩
  | @range p h t l h1 h2 h3 ih => obtain ⟨u, rfl, hu⟩ := ih; exact ⟨45 :: h :: u, rfl, by simp; exact ⟨fun e => h1 e.symm, hu⟩⟩
  | @one p c t l h1 h2 h3 ih => obtain ⟨u, rfl, hu⟩ := ih; exact ⟨c :: u, rfl, by simp; exact ⟨fun e => h1 e.symm, hu⟩⟩

theorem esc_mem {c : Nat} {l : List Nat} : c ∈ l.flatMap esc ↔ c ∈ l := by
  simp only [List.mem_flatMap, esc]
  constructor
  · rintro ⟨d, hd, h⟩; split at h <;> simp_all
  · intro h; exact ⟨c, h, by split <;> simp_all⟩

/-- The text of a class in the expression. -/
theorem bracketRegex_eq {l mark body rest : List Nat} {c : Nat} (h : Closed l mark c body rest) :
    bracketRegex (mark ++ c :: body) = 91 :: ((if mark = [] then [] else [94]) ++ (c :: body).flatMap esc ++ [93]) := by
  rcases h.mark with rfl | rfl | ⟨rfl, h1, h2⟩
  · simp [bracketRegex]
  · simp [bracketRegex, esc]
  · simp [bracketRegex, h1]

/-! ### The expression of a readable pattern -/

def notSlash : Rx := .set true [(47, 47)]

theorem notSlash_syn {n : Nat} : Syn .atom [91, 94, 47, 93] notSlash n n := .notSet (.mk .close)

theorem notSlash_M {text : List Nat} {i j : Nat} : Rx.M text notSlash i j ↔ ∃ c, text[i]? = some c ∧ c ≠ 47 ∧ j = i + 1 := by
  have hin : ∀ c, Rx.inRanges [(47, 47)] c ↔ c = 47 := by
    intro c; simp only [Rx.inRanges, List.mem_singleton, exists_eq_left]; omega
  constructor
  · intro h
    unfold notSlash at h
    cases h with
    | setOut h1 h2 => exact ⟨_, h1, fun e => h2 ((hin _).2 e), rfl⟩
  · rintro ⟨c, h1, h2, rfl⟩
    exact .setOut h1 (fun h => h2 ((hin c).1 h))

/-- How the loop steps. -/
theorem loop_enough : ∀ (n : Nat) (p : List Nat), p.length ≤ n → loop n p = loop p.length p := by
  intro n
  induction n using Nat.strongRecOn with
  | _ n ih =>
    intro p hp
    cases p with
    | nil => cases n <;> rfl
    | cons c t =>
      cases n with
      | zero => simp at hp
      | succ n =>
        simp only [List.length_cons] at hp ⊢
        have ht : loop n t = loop t.length t := ih n (by omega) t (by omega)
        have hb : ∀ b rest, bracket t = some (b, rest) → loop n rest = loop t.length rest := by
          intro b rest hbr
          rcases bracket_spec t with ⟨m, d, body, rest', h1, h2⟩ | ⟨-, h2⟩
          · rw [h2] at hbr
            simp only [Option.some.injEq, Prod.mk.injEq] at hbr
            have := h1.shorter
            rw [hbr.2] at this
            rw [ih n (by omega) rest (by omega)]
            by_cases e : t.length < n + 1
            · rw [ih t.length (by omega) rest (by omega)]
            · omega
          · rw [h2] at hbr; cases hbr
        simp only [loop, ht]
        cases hbr : bracket t with
        | none => rfl
        | some x => obtain ⟨b, rest⟩ := x; simp only [hb b rest hbr]

/-- The tree, with `tail` at its end. -/
def tree (tail : Rx) : List Tok → Rx
  | [] => tail
  | .star :: l => .cat (.star notSlash) (tree tail l)
  | .one :: l => .cat notSlash (tree tail l)
  | .set neg rs :: l => .cat (.set neg rs) (tree tail l)
  | .chr c :: l => .cat (.chr c) (tree tail l)

/-- The same tokens but for the way sets are written. -/
inductive SameToks : List Tok → List Tok → Prop where
  | nil : SameToks [] []
  | same {t l l'} : SameToks l l' → SameToks (t :: l) (t :: l')
  | set {neg rs rs' l l'} : (∀ c, In rs c ↔ In rs' c) → SameToks l l' → SameToks (.set neg rs :: l) (.set neg rs' :: l')

theorem SameToks.matches {l l' : List Tok} (h : SameToks l l') {t : List Nat} (hm : Matches l t) : Matches l' t := by
  induction h generalizing t with
  | nil => exact hm
  | same h ih =>
    cases hm with
    | star h1 h2 => exact .star h1 (ih h2)
    | one h1 h2 => exact .one h1 (ih h2)
    | set h1 h2 => exact .set h1 (ih h2)
    | chr h2 => exact .chr (ih h2)
  | set he h ih =>
    cases hm with
    | set h1 h2 => exact .set (h1.trans (he _)) (ih h2)

theorem SameToks.symm {l l' : List Tok} (h : SameToks l l') : SameToks l' l := by
  induction h with
  | nil => exact .nil
  | same _ ih => exact .same ih
  | set he _ ih => exact .set (fun c => (he c).symm) ih

theorem alnum_special {c : Nat} (h : alnum c = true) : c ∉ special := by
  simp only [alnum, decide_eq_true_eq] at h
  simp only [special, List.mem_cons, List.not_mem_nil, or_false]
  omega

/-- What is read is the text of a branch. -/
theorem reads_syn {p : List Nat} {l : List Tok} (h : Reads p l) {tail : Rx} {tt : List Nat} {n : Nat} (ht : Syn .branch tt tail n n) :
    ∃ l', SameToks l l' ∧ Syn .branch (loop p.length p ++ tt) (tree tail l') n n := by
  induction h with
  | nil => exact ⟨[], .nil, ht⟩
  | @star p l h ih =>
    obtain ⟨l', h1, h2⟩ := ih
    refine ⟨.star :: l', .same h1, ?_⟩
    simp only [List.length_cons, loop, ↓reduceIte, List.append_assoc]
    exact .cons (s := [91, 94, 47, 93] ++ [42]) (.star notSlash_syn (by intro h; cases h)) h2
  | @one p l h ih =>
    obtain ⟨l', h1, h2⟩ := ih
    refine ⟨.one :: l', .same h1, ?_⟩
    simp only [List.length_cons, loop, ↓reduceIte, List.append_assoc, show (63 : Nat) ≠ 42 by decide]
    exact .cons (s := [91, 94, 47, 93]) (.one notSlash_syn) h2
  | @set p mark c body rest l rs hc hi h ih =>
    obtain ⟨l', h1, h2⟩ := ih
    obtain ⟨rs', h3, h4⟩ := items_class hi hc.body
    simp only [List.length_cons, loop, ↓reduceIte, show (91 : Nat) ≠ 42 by decide, show (91 : Nat) ≠ 63 by decide]
    have hb : bracket p = some (mark ++ c :: body, rest) := by
      rcases bracket_spec p with ⟨m', c', b', r', g1, g2⟩ | ⟨g1, -⟩
      · obtain ⟨rfl, rfl, rfl, rfl⟩ := hc.unique g1; exact g2
      · exact absurd ⟨_, _, _, _, hc⟩ g1
    rw [hb]
    simp only
    rw [bracketRegex_eq hc, loop_enough _ _ (Nat.le_of_lt hc.shorter), List.append_assoc]
    -- the class text
    have hct : ∃ cl, ClassText ((c :: body).flatMap esc ++ [93]) cl ∧ ∀ x, In ((c, c) :: rs) x ↔ In cl x := by
      by_cases e : c = 92
      · subst e
        refine ⟨(92, 92) :: (92, 92) :: rs', ?_, ?_⟩
        · simp only [List.flatMap_cons, esc, ↓reduceIte]
          exact .mk (.one (by decide) (by decide) h3)
        · intro x; simp only [in_eq, inRanges_cons] at h4 ⊢; rw [h4]; tauto
      · refine ⟨(c, c) :: rs', ?_, ?_⟩
        · simp only [List.flatMap_cons, esc, e, ↓reduceIte]
          exact .mk h3
        · intro x; simp only [in_eq, inRanges_cons] at h4 ⊢; rw [h4]
    obtain ⟨cl, h5, h6⟩ := hct
    by_cases hm : mark = []
    · refine ⟨.set false cl :: l', ?_, ?_⟩
      · simp only [hm, ne_eq, not_true_eq_false, decide_false]
        exact .set h6 h1
      · simp only [hm, ↓reduceIte, List.nil_append]
        refine .cons (s := 91 :: _) (.one (.set ?_ h5)) h2
        have : c ≠ 94 := by
          rcases hc.mark with h | h | h
          · rw [hm] at h; cases h
          · rw [hm] at h; cases h
          · exact h.2.2
        simp only [List.flatMap_cons, esc]
        split
        · simp
        · simpa using this
    · refine ⟨.set true cl :: l', ?_, ?_⟩
      · simp only [ne_eq, hm, not_false_eq_true, decide_true]
        exact .set h6 h1
      · simp only [hm, ↓reduceIte]
        exact .cons (s := 91 :: 94 :: _) (.one (.notSet h5)) h2
  | @unclosed p l hn h ih =>
    obtain ⟨l', h1, h2⟩ := ih
    refine ⟨.chr 91 :: l', .same h1, ?_⟩
    have hb : bracket p = none := by
      rcases bracket_spec p with ⟨m', c', b', r', g1, g2⟩ | ⟨-, g2⟩
      · exact absurd ⟨_, _, _, _, g1⟩ hn
      · exact g2
    simp only [List.length_cons, loop, ↓reduceIte, List.append_assoc, show (91 : Nat) ≠ 42 by decide, show (91 : Nat) ≠ 63 by decide, hb]
    exact .cons (s := [92, 91]) (.one .escaped) h2
  | @chr c p l e1 e2 e3 h ih =>
    obtain ⟨l', h1, h2⟩ := ih
    refine ⟨.chr c :: l', .same h1, ?_⟩
    simp only [List.length_cons, loop, e1, e2, e3, ↓reduceIte]
    by_cases ha : alnum c = true
    · rw [if_pos ha]
      exact .cons (s := [c]) (.one (.chr (alnum_special ha))) h2
    · rw [if_neg ha]
      exact .cons (s := [92, c]) (.one .escaped) h2

/-! ### What it matches -/

theorem drop_step {text : List Nat} {i c : Nat} {u : List Nat} : c :: u <+: text.drop i ↔ text[i]? = some c ∧ u <+: text.drop (i + 1) := by
  constructor
  · rintro ⟨v, hv⟩
    obtain ⟨h1, h2⟩ := (drop_cons_iff (v := u ++ v)).1 hv.symm
    exact ⟨h1, v, h2⟩
  · rintro ⟨h1, v, hv⟩
    exact ⟨v, ((drop_cons_iff (v := u ++ v)).2 ⟨h1, hv⟩).symm⟩

theorem star_M {text : List Nat} {i j : Nat} : Rx.M text (.star notSlash) i j ↔
    ∃ u, u <+: text.drop i ∧ (∀ c ∈ u, c ≠ 47) ∧ j = i + u.length ∧ i ≤ text.length := by
  constructor
  · intro h
    generalize e : Rx.star notSlash = r at h
    induction h with
    | star0 h => exact ⟨[], List.nil_prefix, by simp, rfl, h⟩
    | @star r i j k h1 h2 ih1 ih2 =>
      cases e
      obtain ⟨c, g1, g2, rfl⟩ := notSlash_M.1 h1
      obtain ⟨u, g3, g4, rfl, g5⟩ := ih2 rfl
      refine ⟨c :: u, drop_step.2 ⟨g1, g3⟩, ?_, by simp; omega, by omega⟩
      intro x hx
      rcases List.mem_cons.1 hx with rfl | hx
      · exact g2
      · exact g4 x hx
    | _ => cases e
  · rintro ⟨u, h1, h2, rfl, h3⟩
    induction u generalizing i with
    | nil => exact .star0 h3
    | cons c u ih =>
      obtain ⟨g1, g2⟩ := drop_step.1 h1
      have hl : i < text.length := by
        rcases Nat.lt_or_ge i text.length with h | h
        · exact h
        · rw [List.getElem?_eq_none h] at g1; cases g1
      rw [List.length_cons, show i + (u.length + 1) = (i + 1) + u.length by omega]
      exact .star (notSlash_M.2 ⟨c, g1, h2 c List.mem_cons_self, rfl⟩) (ih g2 (fun x hx => h2 x (List.mem_cons_of_mem _ hx)) hl)

theorem prefix_append {text : List Nat} {i : Nat} {u v : List Nat} : u ++ v <+: text.drop i ↔ u <+: text.drop i ∧ v <+: text.drop (i + u.length) := by
  induction u generalizing i with
  | nil => simp
  | cons c u ih =>
    rw [List.cons_append, drop_step, drop_step, ih, List.length_cons, show i + (u.length + 1) = i + 1 + u.length by omega]
    tauto

theorem tree_M {text : List Nat} {tail : Rx} (l : List Tok) {i j : Nat} : Rx.M text (tree tail l) i j ↔
    ∃ u, u <+: text.drop i ∧ Matches l u ∧ Rx.M text tail (i + u.length) j := by
  have catI : ∀ {a b : Rx} {i j : Nat}, Rx.M text (.cat a b) i j ↔ ∃ k, Rx.M text a i k ∧ Rx.M text b k j := by
    intro a b i j
    constructor
    · intro h; cases h with | cat h1 h2 => exact ⟨_, h1, h2⟩
    · rintro ⟨k, h1, h2⟩; exact .cat h1 h2
  induction l generalizing i with
  | nil =>
    simp only [tree]
    constructor
    · intro h; exact ⟨[], List.nil_prefix, .nil, h⟩
    · rintro ⟨u, -, h, hm⟩; cases h; exact hm
  | cons t l ih =>
    cases t with
    | star =>
      simp only [tree, catI, ih, star_M]
      constructor
      · rintro ⟨k, ⟨u, h1, h2, rfl, h3⟩, v, h4, h5, h6⟩
        exact ⟨u ++ v, prefix_append.2 ⟨h1, h4⟩, .star h2 h5, by rw [List.length_append, ← Nat.add_assoc]; exact h6⟩
      · rintro ⟨w, h1, h2, h3⟩
        cases h2 with
        | @star _ u v h4 h5 =>
          obtain ⟨g1, g2⟩ := prefix_append.1 h1
          have := (M_range h3)
          rw [List.length_append] at h3 this
          refine ⟨i + u.length, ⟨u, g1, h4, rfl, by omega⟩, v, g2, h5, by rw [Nat.add_assoc]; exact h3⟩
    | one =>
      simp only [tree, catI, ih, notSlash_M]
      constructor
      · rintro ⟨k, ⟨c, h1, h2, rfl⟩, v, h4, h5, h6⟩
        exact ⟨c :: v, drop_step.2 ⟨h1, h4⟩, .one h2 h5, by rw [List.length_cons, show i + (v.length + 1) = i + 1 + v.length by omega]; exact h6⟩
      · rintro ⟨w, h1, h2, h3⟩
        cases h2 with
        | @one _ c v h4 h5 =>
          obtain ⟨g1, g2⟩ := drop_step.1 h1
          rw [List.length_cons, show i + (v.length + 1) = i + 1 + v.length by omega] at h3
          exact ⟨i + 1, ⟨c, g1, h4, rfl⟩, v, g2, h5, h3⟩
    | chr c =>
      simp only [tree, catI, ih]
      constructor
      · rintro ⟨k, h1, v, h4, h5, h6⟩
        cases h1 with
        | chr h1 => exact ⟨c :: v, drop_step.2 ⟨h1, h4⟩, .chr h5, by rw [List.length_cons, show i + (v.length + 1) = i + 1 + v.length by omega]; exact h6⟩
      · rintro ⟨w, h1, h2, h3⟩
        cases h2 with
        | @chr _ _ v h5 =>
          obtain ⟨g1, g2⟩ := drop_step.1 h1
          rw [List.length_cons, show i + (v.length + 1) = i + 1 + v.length by omega] at h3
          exact ⟨i + 1, .chr g1, v, g2, h5, h3⟩
    | set neg rs =>
      simp only [tree, catI, ih]
      constructor
      · rintro ⟨k, h1, v, h4, h5, h6⟩
        cases h1 with
        | @setIn _ c _ h1 h2 => exact ⟨c :: v, drop_step.2 ⟨h1, h4⟩, .set (by simpa [in_eq] using h2) h5, by rw [List.length_cons, show i + (v.length + 1) = i + 1 + v.length by omega]; exact h6⟩
        | @setOut _ c _ h1 h2 => exact ⟨c :: v, drop_step.2 ⟨h1, h4⟩, .set (by simpa [in_eq] using h2) h5, by rw [List.length_cons, show i + (v.length + 1) = i + 1 + v.length by omega]; exact h6⟩
      · rintro ⟨w, h1, h2, h3⟩
        cases h2 with
        | @set _ _ _ c v h4 h5 =>
          obtain ⟨g1, g2⟩ := drop_step.1 h1
          rw [List.length_cons, show i + (v.length + 1) = i + 1 + v.length by omega] at h3
          refine ⟨i + 1, ?_, v, g2, h5, h3⟩
          cases neg with
          | false => exact .setIn g1 (h4.1 rfl)
          | true => exact .setOut g1 (fun h => by have := h4.2 h; cases this)

/-! ### An expression that is accepted comes from a readable pattern -/

theorem branch_inv {s : List Nat} {b : Rx} {n m : Nat} (h : Syn .branch s b n m) :
    s = [] ∨ ∃ x y a b' k, s = x ++ y ∧ Syn .piece x a n k ∧ Syn .branch y b' k m := by
  cases h with
  | empty => exact .inl rfl
  | cons h1 h2 => exact .inr ⟨_, _, _, _, _, rfl, h1, h2⟩

theorem piece_inv {x : List Nat} {a : Rx} {n m : Nat} (h : Syn .piece x a n m) :
    ∃ x' r, Syn .atom x' r n m ∧ (x = x' ∨ ∃ op, isMult op = true ∧ x = x' ++ [op]) := by
  cases h with
  | one h => exact ⟨_, _, h, .inl rfl⟩
  | star h _ => exact ⟨_, _, h, .inr ⟨_, rfl, rfl⟩⟩
  | plus h _ => exact ⟨_, _, h, .inr ⟨_, rfl, rfl⟩⟩
  | opt h => exact ⟨_, _, h, .inr ⟨_, rfl, rfl⟩⟩

/-- The first atom of a text `x ++ w`, when it starts with a backslash, an ordinary character, `^` or `[`. -/
theorem atom_inv {x : List Nat} {r : Rx} {n m c : Nat} {t w : List Nat} (h : Syn .atom x r n m) (e : x ++ w = c :: t) :
    (c = 92 → ∃ d, x = [92, d]) ∧ (c ∉ special → x = [c]) ∧ (c = 94 → x = [94]) ∧
    (c = 91 → ∃ y l, ClassText y l ∧ (x = 91 :: y ∧ y.head? ≠ some 94 ∨ x = 91 :: 94 :: y)) := by
  generalize hk : Kind.atom = k at h
  cases h with
  | bol => cases e; simp [special]
  | eol => cases e; simp [special]
  | any => cases e; simp [special]
  | chr h =>
    cases e
    refine ⟨?_, fun _ => rfl, ?_, ?_⟩
    · rintro rfl; exact absurd (by decide) h
    · rintro rfl; exact absurd (by decide) h
    · rintro rfl; exact absurd (by decide) h
  | escaped => cases e; simp [special]
  | @set t l _ h1 h2 =>
    cases e
    refine ⟨by simp, by simp [special], by simp, fun _ => ⟨t, l, h2, .inl ⟨rfl, h1⟩⟩⟩
  | @notSet t l _ h2 =>
    cases e
    refine ⟨by simp, by simp [special], by simp, fun _ => ⟨t, l, h2, .inr rfl⟩⟩
  | group h1 h2 => cases e; simp [special]
  | _ => cases hk

theorem loop_head (c : Nat) (t : List Nat) : ∃ d y, loop (c :: t).length (c :: t) = d :: y ∧ isMult d = false ∧ d ≠ 124 ∧ d ≠ 41 := by
  simp only [List.length_cons, loop]
  by_cases e1 : c = 42
  · exact ⟨91, _, by rw [if_pos e1]; rfl, rfl, by decide, by decide⟩
  by_cases e2 : c = 63
  · exact ⟨91, _, by rw [if_neg e1, if_pos e2]; rfl, rfl, by decide, by decide⟩
  by_cases e3 : c = 91
  · rw [if_neg e1, if_neg e2, if_pos e3]
    cases bracket t with
    | none => exact ⟨92, _, rfl, rfl, by decide, by decide⟩
    | some x => exact ⟨91, _, rfl, rfl, by decide, by decide⟩
  rw [if_neg e1, if_neg e2, if_neg e3]
  by_cases e4 : alnum c = true
  · rw [if_pos e4]
    have := alnum_special e4
    exact ⟨c, _, rfl, notSpecial_mult this, fun e => by rw [e] at this; exact absurd (by decide) this, fun e => by rw [e] at this; exact absurd (by decide) this⟩
  · rw [if_neg e4]; exact ⟨92, _, rfl, rfl, by decide, by decide⟩

theorem loop_noMult (p tt : List Nat) (ht : tt = [] ∨ tt = [36]) : NoMult (loop p.length p ++ tt) := by
  cases p with
  | nil =>
    rcases ht with rfl | rfl
    · intro c v h; cases h
    · intro c v h; cases h; rfl
  | cons c t =>
    obtain ⟨d, y, h1, h2, -⟩ := loop_head c t
    rw [h1]
    intro c v h; cases h; exact h2

/-- The first piece of a text that starts with the text `X` of an atom. -/
theorem first_piece {X Y s v : List Nat} {b : Rx} {n m : Nat} (hb : Syn .branch s b n m) (e : s ++ v = X ++ Y) (hv : Stop v) (hY : NoMult Y)
    (hX : ∃ c t, X = c :: t ∧ c ≠ 124 ∧ c ≠ 41) (hat : ∀ x r n k w, Syn .atom x r n k → x ++ w = X ++ Y → x = X) :
    ∃ y b' k, Syn .branch y b' k m ∧ y ++ v = Y := by
  rcases branch_inv hb with rfl | ⟨x, y, a, b', k, rfl, h1, h2⟩
  · obtain ⟨c, t, rfl, g1, g2⟩ := hX
    rcases hv with rfl | ⟨d, w, rfl, h | h⟩
    · cases e
    · simp only [List.nil_append, List.cons_append, List.cons.injEq] at e; omega
    · simp only [List.nil_append, List.cons_append, List.cons.injEq] at e; omega
  · obtain ⟨x', r, h3, h4⟩ := piece_inv h1
    rcases h4 with rfl | ⟨op, ho, rfl⟩
    · rw [List.append_assoc] at e
      have := hat _ _ _ _ _ h3 e
      subst this
      exact ⟨y, b', k, h2, List.append_cancel_left e⟩
    · rw [List.append_assoc, List.append_assoc] at e
      have := hat _ _ _ _ _ h3 e
      subst this
      have e := List.append_cancel_left e
      have := hY op _ e.symm
      rw [ho] at this; cases this

theorem class_prefix {x : List Nat} {cl : List (Nat × Nat)} (h : ClassText x cl) {w body w' : List Nat} {c : Nat} (hb : 93 ∉ body)
    (e : x ++ w = c :: body ++ 93 :: w') : x = c :: body ++ [93] := by
  cases h with
  | mk h =>
    obtain ⟨u, rfl, hu⟩ := classRest_end h
    simp only [List.cons_append, List.append_assoc, List.cons.injEq, List.nil_append] at e
    obtain ⟨rfl, e⟩ := e
    obtain ⟨rfl, -⟩ := split93 hu hb e
    simp

theorem notSlash_prefix {x : List Nat} {r : Rx} {n m : Nat} {w Y : List Nat} (h : Syn .atom x r n m) (e : x ++ w = [91, 94, 47, 93] ++ Y) : x = [91, 94, 47, 93] := by
  obtain ⟨y, l, h1, h2⟩ := (atom_inv (c := 91) h e).2.2.2 rfl
  rcases h2 with ⟨rfl, h2⟩ | rfl
  · exfalso
    simp only [List.cons_append, List.nil_append, List.cons.injEq, true_and] at e
    cases y with
    | nil => cases h1
    | cons d y => simp only [List.cons_append, List.cons.injEq] at e; exact h2 (by simp [e.1])
  · simp only [List.cons_append, List.nil_append, List.cons.injEq, true_and] at e
    have := class_prefix (body := []) h1 (by simp) e
    rw [this]; rfl

theorem syn_reads : ∀ (N : Nat) (p : List Nat), p.length ≤ N → ∀ (tt s v : List Nat) (b : Rx) (n m : Nat), (tt = [] ∨ tt = [36]) →
    Syn .branch s b n m → s ++ v = loop p.length p ++ tt → Stop v → ∃ l, Reads p l := by
  intro N
  induction N with
  | zero =>
    intro p hp tt s v b n m _ _ _ _
    cases p with
    | nil => exact ⟨[], .nil⟩
    | cons c t => simp at hp
  | succ N ih =>
    intro p hp tt s v b n m ht hb e hv
    cases p with
    | nil => exact ⟨[], .nil⟩
    | cons c t =>
      simp only [List.length_cons] at hp
      simp only [List.length_cons, loop] at e
      by_cases e1 : c = 42
      · subst e1
        simp only [↓reduceIte] at e
        -- the atom and the star
        rcases branch_inv hb with rfl | ⟨x, y, a, b', k, rfl, h1, h2⟩
        · rcases hv with rfl | ⟨d, w, rfl, h | h⟩
          · cases e
          · subst h; simp at e
          · subst h; simp at e
        · obtain ⟨x', r, h3, h4⟩ := piece_inv h1
          rcases h4 with rfl | ⟨op, ho, rfl⟩
          · rw [List.append_assoc, List.append_assoc] at e
            have := notSlash_prefix (Y := 42 :: (loop t.length t ++ tt)) h3 e
            subst this
            exfalso
            have e : y ++ v = 42 :: (loop t.length t ++ tt) := by simpa using e
            cases y with
            | nil =>
              rcases hv with rfl | ⟨d, w, rfl, h | h⟩
              · cases e
              · subst h; simp at e
              · subst h; simp at e
            | cons d y =>
              have := h2.front d y rfl
              simp only [List.cons_append, List.cons.injEq] at e
              rw [e.1] at this; cases this
          · rw [List.append_assoc, List.append_assoc, List.append_assoc] at e
            have := notSlash_prefix (Y := 42 :: (loop t.length t ++ tt)) h3 e
            subst this
            have e : y ++ v = loop t.length t ++ tt := by
              simp only [List.cons_append, List.nil_append, List.cons.injEq, true_and] at e
              exact e.2
            obtain ⟨l, hl⟩ := ih t (by omega) tt y v b' k m ht h2 e hv
            exact ⟨_, .star hl⟩
      by_cases e2 : c = 63
      · subst e2
        simp only [show (63 : Nat) ≠ 42 by decide, ↓reduceIte, List.append_assoc] at e
        obtain ⟨y, b', k, h1, h2⟩ := first_piece hb e hv (loop_noMult t tt ht) ⟨_, _, rfl, by decide, by decide⟩ (fun _ _ _ _ _ h e => notSlash_prefix h e)
        obtain ⟨l, hl⟩ := ih t (by omega) tt y v b' k m ht h1 h2 hv
        exact ⟨_, .one hl⟩
      have lit : ∀ d : Nat, s ++ v = [92, d] ++ (loop t.length t ++ tt) → ∃ l, Reads t l := by
        intro d e
        obtain ⟨y, b', k, h1, h2⟩ := first_piece hb e hv (loop_noMult t tt ht) ⟨_, _, rfl, by decide, by decide⟩ (by
          intro x r n k w h e
          obtain ⟨d', rfl⟩ := (atom_inv (c := 92) h e).1 rfl
          simp only [List.cons_append, List.nil_append, List.cons.injEq, true_and] at e
          rw [e.1])
        exact ih t (by omega) tt y v b' k m ht h1 h2 hv
      by_cases e3 : c = 91
      · subst e3
        simp only [show (91 : Nat) ≠ 42 by decide, show (91 : Nat) ≠ 63 by decide, ↓reduceIte] at e
        rcases bracket_spec t with ⟨mark, c, body, rest, hc, hbr⟩ | ⟨hn, hbr⟩
        · rw [hbr] at e
          simp only [bracketRegex_eq hc] at e
          rw [loop_enough _ _ (Nat.le_of_lt hc.shorter), List.append_assoc] at e
          have h93 : 93 ∉ body.flatMap esc := fun h => hc.body (esc_mem.1 h)
          -- the class text
          have hfm : (c :: body).flatMap esc = c :: ((if c = 92 then [92] else []) ++ body.flatMap esc) := by
            rw [List.flatMap_cons, esc]; split <;> simp_all
          have h93' : 93 ∉ (if c = 92 then [92] else []) ++ body.flatMap esc := by
            intro h
            rcases List.mem_append.1 h with h | h
            · split at h <;> simp at h
            · exact h93 h
          have key : ∀ x r n k w, Syn .atom x r n k → x ++ w = 91 :: ((if mark = [] then [] else [94]) ++ (c :: body).flatMap esc ++ [93]) ++ (loop rest.length rest ++ tt) →
              x = 91 :: ((if mark = [] then [] else [94]) ++ (c :: body).flatMap esc ++ [93]) ∧ ∃ cl, ClassText ((c :: body).flatMap esc ++ [93]) cl := by
            intro x r n k w h e
            obtain ⟨z, cl, h1, h2⟩ := (atom_inv (c := 91) h e).2.2.2 rfl
            by_cases hm : mark = []
            · have h94 : c ≠ 94 := by
                rcases hc.mark with h | h | h
                · rw [hm] at h; cases h
                · rw [hm] at h; cases h
                · exact h.2.2
              simp only [hm, ↓reduceIte, List.nil_append] at e ⊢
              rcases h2 with ⟨rfl, h2⟩ | rfl
              · simp only [List.cons_append, List.cons.injEq, true_and, List.append_assoc, List.nil_append, hfm] at e
                have := class_prefix (c := c) (w' := loop rest.length rest ++ tt) h1 h93' (by rw [e]; simp)
                subst this
                rw [hfm]
                exact ⟨by simp, cl, h1⟩
              · exfalso
                simp only [List.cons_append, List.cons.injEq, true_and, hfm] at e
                exact h94 e.1.symm
            · simp only [hm, ↓reduceIte] at e ⊢
              rcases h2 with ⟨rfl, h2⟩ | rfl
              · exfalso
                simp only [List.cons_append, List.cons.injEq, true_and, List.nil_append] at e
                cases z with
                | nil => cases h1
                | cons d z => simp only [List.cons_append, List.cons.injEq] at e; exact h2 (by simp [e.1])
              · simp only [List.cons_append, List.cons.injEq, true_and, List.append_assoc, List.nil_append, hfm] at e
                have := class_prefix (c := c) (w' := loop rest.length rest ++ tt) h1 h93' (by rw [e]; simp)
                subst this
                rw [hfm]
                exact ⟨by simp, cl, h1⟩
          obtain ⟨y, b', k, h1, h2⟩ := first_piece hb e hv (loop_noMult rest tt ht) ⟨_, _, rfl, by decide, by decide⟩ (fun x r n k w h e => (key x r n k w h e).1)
          have hlt := hc.shorter
          obtain ⟨l, hl⟩ := ih rest (by omega) tt y v b' k m ht h1 h2 hv
          -- its ranges
          have hcl : ∃ cl, ClassText ((c :: body).flatMap esc ++ [93]) cl := by
            rcases branch_inv hb with rfl | ⟨x, y, a, b', k, rfl, g1, g2⟩
            · rcases hv with rfl | ⟨d, w, rfl, h | h⟩
              · cases e
              · subst h; simp at e
              · subst h; simp at e
            · obtain ⟨x', r, g3, g4⟩ := piece_inv g1
              rcases g4 with rfl | ⟨op, ho, rfl⟩
              · rw [List.append_assoc] at e
                exact (key _ _ _ _ _ g3 e).2
              · rw [List.append_assoc, List.append_assoc] at e
                exact (key _ _ _ _ _ g3 e).2
          obtain ⟨cl, hcl⟩ := hcl
          have hit : ∃ rs, Items c body rs := by
            rw [hfm] at hcl
            cases hcl with
            | mk h =>
              by_cases e : c = 92
              · subst e
                simp only [↓reduceIte, List.cons_append, List.nil_append] at h
                obtain ⟨l', h⟩ := one_inv h (by decide) (by decide)
                exact class_items _ body (Nat.le_refl _) hc.body _ _ h
              · simp only [e, ↓reduceIte, List.nil_append] at h
                exact class_items _ body (Nat.le_refl _) hc.body _ _ h
          obtain ⟨rs, hrs⟩ := hit
          exact ⟨_, .set hc hrs hl⟩
        · rw [hbr] at e
          simp only [List.append_assoc] at e
          obtain ⟨l, hl⟩ := lit 91 e
          exact ⟨_, .unclosed hn hl⟩
      simp only [e1, e2, e3, ↓reduceIte] at e
      by_cases e4 : alnum c = true
      · rw [if_pos e4] at e
        have hs := alnum_special e4
        obtain ⟨y, b', k, h1, h2⟩ := first_piece (X := [c]) hb e hv (loop_noMult t tt ht)
          ⟨_, _, rfl, (fun e => by rw [e] at hs; exact absurd (by decide) hs), (fun e => by rw [e] at hs; exact absurd (by decide) hs)⟩ (by
          intro x r n k w h e
          exact (atom_inv h e).2.1 hs)
        obtain ⟨l, hl⟩ := ih t (by omega) tt y v b' k m ht h1 h2 hv
        exact ⟨_, .chr e1 e2 e3 hl⟩
      · rw [if_neg e4] at e
        obtain ⟨l, hl⟩ := lit c e
        exact ⟨_, .chr e1 e2 e3 hl⟩

theorem expr_inv {exp : List Nat} {r : Rx} {n m : Nat} (h : Syn .expr exp r n m) : ∃ s v b k, Syn .branch s b n k ∧ s ++ v = exp ∧ Stop v := by
  cases h with
  | last h => exact ⟨_, [], _, _, h, by simp, .inl rfl⟩
  | alt h1 h2 => exact ⟨_, _, _, _, h1, rfl, .inr ⟨124, _, rfl, .inl rfl⟩⟩

/-! ### The property -/

/-- C147: the expression made from a pattern is a regular expression exactly if the pattern can be read, that is unless a range goes from a
    greater to a smaller character. -/
theorem C147_accepted (p : List Nat) (whole : Bool) : (∃ r, IsRegex (patternToRegex p whole) r) ↔ ∃ l, Reads p l := by
  constructor
  · rintro ⟨r, m, h⟩
    obtain ⟨s, v, b, k, h1, h2, h3⟩ := expr_inv h
    cases whole with
    | false => exact syn_reads _ p (Nat.le_refl _) [] s v b 1 k (.inl rfl) h1 (by rw [h2]; simp [patternToRegex]) h3
    | true =>
      have e : s ++ v = [94] ++ (loop p.length p ++ [36]) := by rw [h2]; simp [patternToRegex]
      obtain ⟨y, b', k', h4, h5⟩ := first_piece h1 e h3 (loop_noMult p [36] (.inr rfl)) ⟨_, _, rfl, by decide, by decide⟩
        (by intro x r n k w h e; exact (atom_inv h e).2.2.1 rfl)
      exact syn_reads _ p (Nat.le_refl _) [36] y v b' k' k (.inr rfl) h4 h5 h3
  · rintro ⟨l, h⟩
    cases whole with
    | false =>
      obtain ⟨l', -, h2⟩ := reads_syn h (tail := .eps) (tt := []) (n := 1) .empty
      exact ⟨_, 1, .last (by simpa [patternToRegex] using h2)⟩
    | true =>
      obtain ⟨l', -, h2⟩ := reads_syn h (tail := .cat .eol .eps) (tt := [36]) (n := 1) (.cons (s := [36]) (t := []) (.one .eol) .empty)
      exact ⟨_, 1, .last (.cons (s := [94]) (.one .bol) (by simpa [patternToRegex] using h2))⟩

/-- C147: it matches (a part of) a text exactly if the text (a part of it) matches the pattern. -/
theorem C147_matches (p : List Nat) (whole : Bool) {r : Rx} (hr : IsRegex (patternToRegex p whole) r) {l : List Tok} (hl : Reads p l) (text : List Nat) :
    (∃ i j, Rx.M text r i j) ↔ if whole then Matches l text else ∃ u, u <:+: text ∧ Matches l u := by
  have one : ∀ {r'}, IsRegex (patternToRegex p whole) r' → ((∃ i j, Rx.M text r i j) ↔ ∃ i j, Rx.M text r' i j) := by
    intro r' h'
    constructor
    · rintro ⟨i, j, h⟩; exact ⟨i, j, ((C118_one_meaning hr h' text i (by have := M_range h; omega)).2 j).1 h⟩
    · rintro ⟨i, j, h⟩; exact ⟨i, j, ((C118_one_meaning h' hr text i (by have := M_range h; omega)).2 j).1 h⟩
  cases whole with
  | false =>
    obtain ⟨l', h1, h2⟩ := reads_syn hl (tail := .eps) (tt := []) (n := 1) .empty
    rw [one ⟨1, .last (by simpa [patternToRegex] using h2)⟩]
    simp only [tree_M, Bool.false_eq_true, ↓reduceIte]
    constructor
    · rintro ⟨i, j, u, h3, h4, -⟩
      exact ⟨u, List.IsInfix.trans h3.isInfix (List.drop_suffix _ _).isInfix, h1.symm.matches h4⟩
    · rintro ⟨u, ⟨a, b, rfl⟩, h4⟩
      refine ⟨a.length, a.length + u.length, u, ?_, h1.matches h4, .eps (by simp)⟩
      rw [List.append_assoc, List.drop_left]
      exact List.prefix_append _ _
  | true =>
    obtain ⟨l', h1, h2⟩ := reads_syn hl (tail := .cat .eol .eps) (tt := [36]) (n := 1) (.cons (s := [36]) (t := []) (.one .eol) .empty)
    rw [one ⟨1, .last (.cons (s := [94]) (.one .bol) (by simpa [patternToRegex] using h2))⟩]
    simp only [↓reduceIte]
    constructor
    · rintro ⟨i, j, h⟩
      cases h with
      | cat g1 g2 =>
        cases g1
        obtain ⟨u, g3, g4, g5⟩ := (tree_M l').1 g2
        cases g5 with
        | cat g6 g7 =>
          generalize e : 0 + u.length = q at g6
          cases g6
          have : u = text := by
            rw [List.drop_zero] at g3
            exact g3.eq_of_length (by omega)
          subst this
          exact h1.symm.matches g4
    · intro h
      refine ⟨0, text.length, .cat .bol ((tree_M l').2 ⟨text, ?_, h1.matches h, ?_⟩)⟩
      · rw [List.drop_zero]; exact List.prefix_refl _
      · rw [Nat.zero_add]; exact .cat .eol (.eps (Nat.le_refl _))

-- models: vital/kwiversys/Glob.cxx:515-520 (Glob::AddExpression): the expression is compiled and copied into the vector
def expression (pattern : List Nat) : Obj := (Obj.new.compile (patternToRegex pattern true)).1.copy

theorem loop_zero : ∀ (n : Nat) (p : List Nat), 0 ∉ p → 0 ∉ loop n p := by
  intro n
  induction n with
  | zero => intro p _; simp [loop]
  | succ n ih =>
    intro p hp
    cases p with
    | nil => simp [loop]
    | cons c t =>
      simp only [List.mem_cons, not_or] at hp
      have ht := ih t hp.2
      simp only [loop]
      split
      · simp [ht]
      · split
        · simp [ht]
        · split
          · rcases bracket_spec t with ⟨mark, d, body, rest, hc, hbr⟩ | ⟨-, hbr⟩
            · rw [hbr]
              simp only [bracketRegex_eq hc]
              have hr : 0 ∉ d :: body ∧ 0 ∉ rest := by
                have := hp.2
                rw [hc.text] at this
                simp only [List.append_assoc, List.mem_append, List.mem_cons, List.cons_append, not_or] at this ⊢
                tauto
              have hf : 0 ∉ (d :: body).flatMap esc := fun h => hr.1 (esc_mem.1 h)
              simp only [List.mem_append, List.mem_cons, not_or]
              refine ⟨⟨by decide, ⟨?_, hf⟩, by decide, by simp⟩, ih rest hr.2⟩
              split <;> simp
            · rw [hbr]; simp [ht]
          · split
            · simp only [List.mem_cons, not_or]; exact ⟨hp.1, ht⟩
            · simp only [List.mem_cons, not_or]; exact ⟨by decide, hp.1, ht⟩

theorem toRegex_zero {p : List Nat} (h : 0 ∉ p) (whole : Bool) : 0 ∉ patternToRegex p whole := by
  have := loop_zero p.length p h
  cases whole <;> simp [patternToRegex, this]

/-- C147: a search with the expression of a pattern always ends. An expression of at most 127 characters is usable unless the pattern cannot
    be read; if it is usable, a name is found exactly when it matches the pattern, and otherwise no name is. -/
theorem C147_find (p : List Nat) (h0 : 0 ∉ p) :
    ((∃ l, Reads p l) → (∀ c ∈ patternToRegex p true, c < 256) → (patternToRegex p true).length ≤ 127 → (expression p).isValid = true) ∧
    ∀ a name, ∃ o b, (∃ N, ∀ fuel, N ≤ fuel → (expression p).find fuel a name = some (o, b)) ∧
      (b = true ↔ (expression p).isValid = true ∧ ∃ l, Reads p l ∧ Matches l name) := by
  have hz := toRegex_zero h0 true
  obtain ⟨c1, c2, c3, c4⟩ := C122_compile (o := Obj.new) (e := none) .new (patternToRegex p true) hz
  cases hb : (Obj.new.compile (patternToRegex p true)).2 with
  | true =>
    obtain ⟨hv, ha⟩ := c1 hb
    have ha' := (C122_copy (o := Obj.new) (e := none) .new ha).1
    have hv' : (expression p).isValid = true := (C122_history ha').1.2 (by simp)
    refine ⟨fun _ _ _ => hv', fun a name => ?_⟩
    obtain ⟨o, b, h1, h2⟩ := (C122_history ha').2 a name
    refine ⟨o, b, h1, ?_⟩
    rw [h2]
    constructor
    · rintro ⟨exp, rx, e, hr, hm⟩
      cases e
      obtain ⟨l, hl⟩ := (C147_accepted p true).1 ⟨rx, hr⟩
      exact ⟨hv', l, hl, by simpa using (C147_matches p true hr hl name).1 hm⟩
    · rintro ⟨-, l, hl, hm⟩
      obtain ⟨rx, hr⟩ := (C147_accepted p true).2 ⟨l, hl⟩
      exact ⟨_, rx, rfl, hr, (C147_matches p true hr hl name).2 (by simpa using hm)⟩
  | false =>
    obtain ⟨hv, ha⟩ := c2 hb
    have ha' := (C122_copy (o := Obj.new) (e := none) .new ha).1
    have hv' : ¬ (expression p).isValid = true := fun h => (C122_history ha').1.1 h rfl
    refine ⟨fun h1 h2 h3 => ?_, fun a name => ?_⟩
    · have := c3 ((C147_accepted p true).2 h1) h2 h3
      rw [hb] at this; cases this
    · obtain ⟨o, b, h1, h2⟩ := (C122_history ha').2 a name
      refine ⟨o, b, h1, ?_⟩
      rw [h2]
      constructor
      · rintro ⟨exp, rx, e, -⟩; cases e
      · rintro ⟨h, -⟩; exact absurd h hv'

theorem Items.unique {p : Nat} {b : List Nat} {l l' : List (Nat × Nat)} (h : Items p b l) (h' : Items p b l') : l = l' := by
  induction h generalizing l' with
  | nil => cases h'; rfl
  | dash => cases h' with
    | dash => rfl
    | one h _ => exact absurd rfl h
  | range _ _ ih => cases h' with
    | range _ h => rw [ih h]
    | one h _ => exact absurd rfl h
  | one hc _ ih => cases h' with
    | dash => exact absurd rfl hc
    | range _ _ => exact absurd rfl hc
    | one _ h => rw [ih h]

/-- C147: a pattern is read in one way only. -/
theorem C147_one_reading {p : List Nat} {l l' : List Tok} (h : Reads p l) (h' : Reads p l') : l = l' := by
  induction h generalizing l' with
  | nil => cases h'; rfl
  | star _ ih => cases h' with
    | star h => rw [ih h]
    | chr h _ _ _ => exact absurd rfl h
  | one _ ih => cases h' with
    | one h => rw [ih h]
    | chr _ h _ _ => exact absurd rfl h
  | set hc hi _ ih => cases h' with
    | set hc' hi' h =>
      obtain ⟨rfl, rfl, rfl, rfl⟩ := hc.unique hc'
      rw [ih h, hi.unique hi']
    | unclosed h _ => exact absurd ⟨_, _, _, _, hc⟩ h
    | chr _ _ h _ => exact absurd rfl h
  | unclosed hn _ ih => cases h' with
    | set hc' _ _ => exact absurd ⟨_, _, _, _, hc'⟩ hn
    | unclosed _ h => rw [ih h]
    | chr _ _ h _ => exact absurd rfl h
  | chr h1 h2 h3 _ ih => cases h' with
    | star _ => exact absurd rfl h1
    | one _ => exact absurd rfl h2
    | set _ _ _ => exact absurd rfl h3
    | unclosed _ _ => exact absurd rfl h3
    | chr _ _ _ h => rw [ih h]

/-- Examples: `*.[ch]` finds `a.c` and not `a.d`; a bracket that is not closed stands for itself; a reversed range finds nothing. -/
example : Reads (bytes "*.[ch]") [.star, .chr 46, .set false [(99, 99), (104, 104)]] ∧
    Matches [.star, .chr 46, .set false [(99, 99), (104, 104)]] (bytes "a.c") :=
  ⟨.star (.chr (by decide) (by decide) (by decide) (.set (mark := []) (c := 99) (body := [104]) (rest := [])
      (Closed.mk rfl (.inr (.inr (by decide))) (by decide)) (.one (by decide) .nil) .nil)),
    .star (u := [97]) (by decide) (.chr (.set (by constructor <;> intro _; exact ⟨(99, 99), by simp, by decide, by decide⟩; rfl) .nil))⟩
example : ((expression (bytes "*.[ch]")).find 1000 1 (bytes "a.c")).map Prod.snd = some true ∧
    ((expression (bytes "*.[ch]")).find 1000 1 (bytes "a.d")).map Prod.snd = some false ∧
    ((expression (bytes "a[b")).find 1000 1 (bytes "a[b")).map Prod.snd = some true ∧
    ((expression (bytes "a[!]x]?")).find 1000 1 (bytes "ayz")).map Prod.snd = some true ∧
    ((expression (bytes "a[!]x]?")).find 1000 1 (bytes "ay/")).map Prod.snd = some false ∧
    ((expression (bytes "a[z-a]")).find 1000 1 (bytes "az")).map Prod.snd = some false := by decide +kernel
example : ¬ ∃ l, Reads (bytes "[z-a]") l := by
  rw [← C147_accepted _ true]
  rintro ⟨r, h⟩
  obtain ⟨p, hp⟩ := (C118_compile_accepts (patternToRegex (bytes "[z-a]") true) (by decide)).2.2 r h (by decide) (by decide)
  have : (match compile (patternToRegex (bytes "[z-a]") true) with | .ok _ => true | .error _ => false) = false := by decide +kernel
  rw [hp] at this; cases this

end Vital.Glob
