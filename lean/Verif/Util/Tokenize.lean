import Verif.Basic.Str
/- Model and properties of vital/util/tokenize.h (C32). -/
namespace Vital.Tokenize
open Vital

/-- First position `≥ i` (relative to the start of the suffix `s`, which begins at `i`) of a character
    of `delims`. -/
-- models: std::string::find_first_of( delims, pos )
def findFirstOf (delims : Str) : Str → Nat → Option Nat
  | [], _ => none
  | c :: s, i => if delims.contains c then some i else findFirstOf delims s (i + 1)

-- models: vital/util/tokenize.h:62-92 (the while loop).  `fuel` bounds the iterations: each iteration
-- that continues increases lastPos, so str.length + 1 iterations always suffice
def loop : Nat → Str → Str → Bool → Nat → List Str → List Str
  | 0, _, _, _, _, tokens => tokens
  | fuel + 1, str, delims, trimEmpty, lastPos, tokens =>
    match findFirstOf delims (str.drop lastPos) lastPos with
    | none =>
      let pos := str.length
      if pos ≠ lastPos ∨ trimEmpty = false then tokens ++ [(str.drop lastPos).take (pos - lastPos)]
      else tokens
    | some pos =>
      let tokens' :=
        if pos ≠ lastPos ∨ trimEmpty = false then tokens ++ [(str.drop lastPos).take (pos - lastPos)]
        else tokens
      loop fuel str delims trimEmpty (pos + 1) tokens'

-- models: vital/util/tokenize.h:55-93 (tokenize)
def tokenize (str : Str) (tokens : List Str) (delims : Str) (trimEmpty : Bool) : List Str :=
  loop (str.length + 1) str delims trimEmpty 0 tokens

/-! ### Lemmas -/

/-- Pieces between delimiters, by recursion on the text. -/
def pieces (delims : Str) : Str → List Str
  | [] => [[]]
  | c :: s =>
    if delims.contains c then [] :: pieces delims s
    else match pieces delims s with
      | [] => [[c]]
      | p :: ps => (c :: p) :: ps

theorem pieces_ne_nil (d s : Str) : pieces d s ≠ [] := by
  cases s with
  | nil => simp [pieces]
  | cons c s =>
    simp only [pieces]; split
    · simp
    · split <;> simp

theorem find_none {d s : Str} {i : Nat} (h : findFirstOf d s i = none) : pieces d s = [s] := by
  induction s generalizing i with
  | nil => rfl
  | cons c s ih =>
    simp only [findFirstOf] at h
    split at h
    · cases h
    · rename_i hc
      simp only [pieces, hc, ih h, ↓reduceIte]; rfl

theorem find_some {d s : Str} {i p : Nat} (h : findFirstOf d s i = some p) :
    i ≤ p ∧ p - i < s.length ∧ pieces d s = s.take (p - i) :: pieces d (s.drop (p - i + 1)) := by
  induction s generalizing i with
  | nil => cases h
  | cons c s ih =>
    simp only [findFirstOf] at h
    split at h
    · rename_i hc
      cases h
      refine ⟨Nat.le_refl _, by simp, ?_⟩
      rw [pieces, if_pos hc]; simp
    · rename_i hc
      obtain ⟨h1, h2, h3⟩ := ih h
      refine ⟨by omega, by simp; omega, ?_⟩
      have e : p - i = (p - (i + 1)) + 1 := by omega
      rw [pieces, if_neg hc, h3, e]
      simp

def keep (trimEmpty : Bool) (ps : List Str) : List Str :=
  if trimEmpty then ps.filter (fun p => decide (p ≠ [])) else ps

theorem loop_spec (str d : Str) (te : Bool) : ∀ fuel lastPos tokens, lastPos ≤ str.length →
    str.length - lastPos < fuel →
    loop fuel str d te lastPos tokens = tokens ++ keep te (pieces d (str.drop lastPos)) := by
  intro fuel
  induction fuel with
  | zero => intro l t _ h; omega
  | succ fuel ih =>
    intro l t hl hf
    unfold loop
    split
    · rename_i hn
      rw [find_none hn]
      have htake : (str.drop l).take (str.length - l) = str.drop l := by
        apply List.take_of_length_le; simp
      simp only [htake]
      have hempty : str.drop l = [] ↔ str.length = l := by
        rw [List.drop_eq_nil_iff]; omega
      cases te
      · simp [keep]
      · simp only [keep, ↓reduceIte, List.filter_cons, List.filter_nil]
        by_cases e : str.length = l
        · have := hempty.2 e; simp [e, this]
        · have : str.drop l ≠ [] := fun h => e (hempty.1 h)
          simp [e, this]
    · rename_i pos hs
      obtain ⟨h1, h2, h3⟩ := find_some hs
      simp only [List.length_drop] at h2
      simp only
      rw [ih (pos + 1) _ (by omega) (by omega), h3, List.drop_drop]
      rw [show l + (pos - l + 1) = pos + 1 by omega]
      have hempty : (str.drop l).take (pos - l) = [] ↔ pos = l := by
        rw [List.take_eq_nil_iff, List.drop_eq_nil_iff]; omega
      cases te
      · simp [keep]
      · simp only [keep, ↓reduceIte, List.filter_cons]
        by_cases e : pos = l
        · have := hempty.2 e; simp [e]
        · have : (str.drop l).take (pos - l) ≠ [] := fun h => e (hempty.1 h)
          simp only [ne_eq, e, not_false_eq_true, true_or, ↓reduceIte, this, decide_true]
          simp

theorem tokenize_eq (str : Str) (tokens : List Str) (d : Str) (te : Bool) :
    tokenize str tokens d te = tokens ++ keep te (pieces d str) := by
  unfold tokenize
  rw [loop_spec str d te _ 0 tokens (by omega) (by omega)]; simp

/-! ### C32 -/

/-- Tokens joined by delimiters chosen one by one from `ds`. -/
def interleave : List Str → Str → Str
  | [], _ => []
  | [p], _ => p
  | p :: ps, [] => p ++ interleave ps []
  | p :: ps, d :: ds => p ++ d :: interleave ps ds

theorem pieces_interleave (d s : Str) :
    interleave (pieces d s) (s.filter d.contains) = s ∧
    (pieces d s).length = (s.filter d.contains).length + 1 ∧
    (∀ p ∈ pieces d s, ∀ c ∈ p, c ∉ d) := by
  induction s with
  | nil => simp [pieces, interleave]
  | cons c s ih =>
    obtain ⟨h1, h2, h3⟩ := ih
    simp only [pieces]
    by_cases hc : d.contains c = true
    · rw [if_pos hc]
      rw [List.filter_cons_of_pos hc]
      refine ⟨?_, by simp [h2], ?_⟩
      · cases hp : pieces d s with
        | nil => exact absurd hp (pieces_ne_nil d s)
        | cons p ps =>
          rw [hp] at h1
          simp [interleave, h1]
      · intro p hp
        rcases List.mem_cons.1 hp with rfl | hp
        · simp
        · exact h3 p hp
    · rw [if_neg hc, List.filter_cons_of_neg hc]
      cases hp : pieces d s with
      | nil => exact absurd hp (pieces_ne_nil d s)
      | cons p ps =>
        rw [hp] at h1 h2 h3
        refine ⟨?_, by simpa using h2, ?_⟩
        · cases ps with
          | nil => simpa [interleave] using h1
          | cons q ps =>
            cases hd : s.filter d.contains with
            | nil => rw [hd] at h2; simp at h2
            | cons e es => rw [hd] at h1; simpa [interleave] using h1
        · intro p' hp'
          rcases List.mem_cons.1 hp' with rfl | hp'
          · intro x hx
            rcases List.mem_cons.1 hx with rfl | hx
            · simpa using hc
            · exact h3 p (by simp) x hx
          · exact h3 p' (by simp [hp'])

/-- Without trimming: earlier content is kept in front; the new tokens interleaved with the delimiters
    that occur in the string give back the string; there is one token more than delimiters; no token
    contains a delimiter. -/
theorem C32_tokenize_lossless (str : Str) (tokens : List Str) (delims : Str) :
    ∃ new, tokenize str tokens delims false = tokens ++ new ∧
      interleave new (str.filter delims.contains) = str ∧
      new.length = (str.filter delims.contains).length + 1 ∧
      ∀ p ∈ new, ∀ c ∈ p, c ∉ delims := by
  refine ⟨pieces delims str, by rw [tokenize_eq]; rfl, pieces_interleave delims str⟩

theorem intercalate_eq_interleave (c : Char) : ∀ (ps : List Str) (ds : Str), ps.length = ds.length + 1 →
    (∀ x ∈ ds, x = c) → List.intercalate [c] ps = interleave ps ds := by
  intro ps
  induction ps with
  | nil => intro ds h; simp at h
  | cons p ps ih =>
    intro ds h2 hall
    cases ps with
    | nil => simp [interleave]
    | cons q ps =>
      cases ds with
      | nil => simp at h2
      | cons e es =>
        have he := hall e (by simp)
        subst he
        have := ih es (by simpa using h2) (fun x hx => hall x (by simp [hx]))
        simp only [interleave, List.intercalate_cons_cons] at this ⊢
        rw [this]; simp

/-- With one delimiter character: joining the tokens with it gives back the string. -/
theorem C32_tokenize_join (str : Str) (c : Char) :
    List.intercalate [c] (tokenize str [] [c] false) = str := by
  rw [tokenize_eq]
  simp only [keep, Bool.false_eq_true, ↓reduceIte, List.nil_append]
  obtain ⟨h, h2, _⟩ := pieces_interleave [c] str
  rw [intercalate_eq_interleave c _ _ h2, h]
  intro x hx; have := (List.mem_filter.1 hx).2; simpa using this

/-- With trimming exactly the empty tokens are left out, in the same order. -/
theorem C32_tokenize_trim (str : Str) (tokens : List Str) (delims : Str) :
    tokenize str tokens delims true =
      tokens ++ (tokenize str [] delims false).filter (fun p => decide (p ≠ [])) := by
  rw [tokenize_eq, tokenize_eq]; simp [keep]

example : tokenize (c!"a,,bc,") [c!"x"] (c!",") false = [c!"x", c!"a", [], c!"bc", []] ∧
    tokenize (c!"a,,bc,") [c!"x"] (c!",") true = [c!"x", c!"a", c!"bc"] := by
  constructor <;> decide +kernel

end Vital.Tokenize
