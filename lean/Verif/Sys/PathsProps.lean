import Verif.Sys.Paths
/-
  Properties of the path helpers: C62, C74–C79.
-/
namespace Vital.Sys
open Vital

/-! ### Cutting strings -/

theorem afterLast_spec (c : Char) (s : Str) :
    c ∉ afterLast c s ∧
    (beforeLast c s = none → c ∉ s ∧ afterLast c s = s) ∧
    (∀ r, beforeLast c s = some r → s = r ++ [c] ++ afterLast c s) := by
  have hsplit : s = (s.reverse.dropWhile (· != c)).reverse ++ afterLast c s := by
    unfold afterLast
    rw [← List.reverse_append, List.takeWhile_append_dropWhile, List.reverse_reverse]
  refine ⟨?_, ?_, ?_⟩
  · unfold afterLast
    intro h
    rw [List.mem_reverse] at h
    have : ∀ (l : Str), c ∉ l.takeWhile (· != c) := by
      intro l
      induction l with
      | nil => simp
      | cons a l ih =>
        by_cases e : a = c
        · subst e; simp
        · rw [List.takeWhile_cons_of_pos (by simpa using e)]
          simp only [List.mem_cons, not_or]
          exact ⟨fun h => e h.symm, ih⟩
    exact this _ h
  · intro h
    unfold beforeLast at h
    split at h
    · rename_i h'
      rw [h'] at hsplit
      have e : afterLast c s = s := by rw [List.reverse_nil, List.nil_append] at hsplit; exact hsplit.symm
      refine ⟨?_, e⟩
      intro hc
      rw [← List.mem_reverse] at hc
      have : ∀ (l : Str), l.dropWhile (· != c) = [] → c ∉ l := by
        intro l
        induction l with
        | nil => simp
        | cons a l ih =>
          intro hd
          by_cases e : a = c
          · subst e; simp at hd
          · rw [List.dropWhile_cons_of_pos (by simpa using e)] at hd
            simp only [List.mem_cons, not_or]
            exact ⟨fun h => e h.symm, ih hd⟩
      exact this _ h' hc
    · simp at h
  · intro r h
    unfold beforeLast at h
    split at h
    · simp at h
    · rename_i a t h'
      cases h
      have ha : a = c := by
        have := dropWhile_head_false (· != c) s.reverse a (by rw [h']; rfl)
        simpa using this
      rw [h', List.reverse_cons, ha] at hsplit
      exact hsplit

theorem beforeFirst_spec (c : Char) (s : Str) :
    c ∉ beforeFirst c s ∧ s = beforeFirst c s ++ fromFirst c s ∧
    (fromFirst c s = [] ∨ (fromFirst c s).head? = some c) := by
  refine ⟨?_, ?_, ?_⟩
  · unfold beforeFirst
    induction s with
    | nil => simp
    | cons a s ih =>
      by_cases e : a = c
      · subst e; simp
      · rw [List.takeWhile_cons_of_pos (by simpa using e)]
        simp only [List.mem_cons, not_or]
        exact ⟨fun h => e h.symm, ih⟩
  · exact (List.takeWhile_append_dropWhile).symm
  · unfold fromFirst
    cases h : s.dropWhile (· != c) with
    | nil => left; rfl
    | cons a t =>
      right
      have := dropWhile_head_false (· != c) s a (by rw [h]; rfl)
      simp only [bne_eq_false_iff_eq] at this
      simp [this]

/-! ### C62 -/

/-- A path in slash normal form: no backslash, no empty component, no home directory reference, no
    trailing slash. -/
structure SlashNormal (p : Str) : Prop where
  noBack : '\\' ∉ p
  noDouble : ∀ a b : Str, p ≠ a ++ c!"//" ++ b
  noTilde : p.head? ≠ some '~'
  noTrail : p.getLast? ≠ some '/'

theorem slashify_eq {p : Str} (h : '\\' ∉ p) : slashify p = p := by
  induction p with
  | nil => rfl
  | cons a p ih =>
    simp only [List.mem_cons, not_or] at h
    unfold slashify
    rw [ih h.2, if_neg (fun e => h.1 e.1.symm)]

theorem adjacentSlashes_iff (p : Str) : adjacentSlashes p = true ↔ ∃ a b : Str, p = a ++ c!"//" ++ b := by
  constructor
  · intro h
    fun_induction adjacentSlashes p with
    | case1 r => exact ⟨[], r, rfl⟩
    | case2 a r _ ih =>
      obtain ⟨x, y, e⟩ := ih h
      exact ⟨a :: x, y, by rw [e]; rfl⟩
    | case3 => simp at h
  · rintro ⟨a, b, rfl⟩
    induction a with
    | nil => rfl
    | cons x a ih =>
      show adjacentSlashes (x :: (a ++ c!"//" ++ b)) = true
      unfold adjacentSlashes
      split
      · rfl
      · rename_i e; cases e; exact ih
      · rename_i e; cases e

theorem convert_normal (w : World) {p : Str} (h : SlashNormal p) : convertToUnixSlashes w p = p := by
  have h1 : adjacentSlashes p.tail = false := by
    cases e : adjacentSlashes p.tail with
    | false => rfl
    | true =>
      exfalso
      obtain ⟨a, b, e'⟩ := (adjacentSlashes_iff _).1 e
      cases p with
      | nil => simp at e'
      | cons x p => exact h.noDouble (x :: a) b (by rw [List.tail_cons] at e'; rw [e']; rfl)
  have h2 : expandTilde w p = p := by
    unfold expandTilde
    split
    · exact absurd rfl h.noTilde
    · rfl
  unfold convertToUnixSlashes
  simp only [slashify_eq h.noBack, h1, Bool.false_eq_true, if_false, h2]
  unfold dropTrailingSlash
  rw [if_neg (fun e => h.noTrail e.2.1)]

/-- C62, directory and name: the name part holds no slash; a path without slash has an empty directory
    part and is its own name; otherwise directory, separating slash (which the root directories "/" and
    "c:/" already end in) and name give back the path. -/
theorem C62_dir_name (w : World) {p : Str} (h : SlashNormal p) :
    '/' ∉ getFilenameName p ∧
    ('/' ∉ p → getFilenamePath w p = [] ∧ getFilenameName p = p) ∧
    ('/' ∈ p → ∃ sep : Str, p = getFilenamePath w p ++ sep ++ getFilenameName p ∧
      (sep = c!"/" ∨ sep = [] ∧ (getFilenamePath w p).getLast? = some '/')) := by
  obtain ⟨h1, h2, h3⟩ := afterLast_spec '/' p
  have hc := convert_normal w h
  refine ⟨h1, ?_, ?_⟩
  · intro hno
    cases hb : beforeLast '/' p with
    | none => exact ⟨by simp [getFilenamePath, hc, hb], (h2 hb).2⟩
    | some r =>
      exact absurd (by rw [h3 r hb]; simp) hno
  · intro hin
    cases hb : beforeLast '/' p with
    | none => exact absurd hin (h2 hb).1
    | some r =>
      have e := h3 r hb
      by_cases c1 : r.length = 2 ∧ r[1]? = some ':'
      · refine ⟨[], ?_, Or.inr ⟨rfl, ?_⟩⟩
        · simp only [getFilenamePath, hc, hb, c1, and_self, if_true, List.append_nil]; exact e
        · simp only [getFilenamePath, hc, hb, c1, and_self, if_true]; simp
      · by_cases c2 : r = []
        · refine ⟨[], ?_, Or.inr ⟨rfl, ?_⟩⟩
          · subst c2
            simp only [getFilenamePath, hc, hb, List.append_nil]; exact e
          · subst c2; simp [getFilenamePath, hc, hb]
        · refine ⟨c!"/", ?_, Or.inl rfl⟩
          simp only [getFilenamePath, hc, hb, if_neg c1, if_neg c2]; exact e

example : SlashNormal (c!"/usr/share/a.tar.gz") := by
  refine ⟨by decide, ?_, by decide, by decide⟩
  intro a b e
  have := (adjacentSlashes_iff (c!"/usr/share/a.tar.gz")).2 ⟨a, b, e⟩
  revert this; decide

example : getFilenamePath {} (c!"/usr/share/a.tar.gz") = c!"/usr/share" ∧
    getFilenameName (c!"/usr/share/a.tar.gz") = c!"a.tar.gz" ∧
    getFilenameExtension (c!"/usr/share/a.tar.gz") = c!".tar.gz" ∧
    getFilenameLastExtension (c!"/usr/share/a.tar.gz") = c!".gz" ∧
    getFilenamePath {} (c!"/a") = c!"/" ∧ getFilenamePath {} (c!"c:/a") = c!"c:/" := by decide +kernel

/-- C62, extensions, for every string: stem and extension give back the name; the long extension starts
    at the first dot of the name, the last extension at the last one. -/
theorem C62_extensions (f : Str) :
    getFilenameWithoutExtension f ++ getFilenameExtension f = getFilenameName f ∧
    '.' ∉ getFilenameWithoutExtension f ∧
    (getFilenameExtension f = [] ∨ (getFilenameExtension f).head? = some '.') ∧
    getFilenameWithoutLastExtension f ++ getFilenameLastExtension f = getFilenameName f ∧
    ((getFilenameLastExtension f = [] ∧ '.' ∉ getFilenameName f) ∨
      ∃ t : Str, getFilenameLastExtension f = '.' :: t ∧ '.' ∉ t) := by
  obtain ⟨a1, a2, a3⟩ := beforeFirst_spec '.' (getFilenameName f)
  obtain ⟨b1, b2, b3⟩ := afterLast_spec '.' (getFilenameName f)
  refine ⟨a2.symm, a1, a3, ?_, ?_⟩
  · unfold getFilenameWithoutLastExtension getFilenameLastExtension
    cases hb : beforeLast '.' (getFilenameName f) with
    | none => simp
    | some r => simp only; conv => rhs; rw [b3 r hb]
                simp
  · unfold getFilenameLastExtension
    cases hb : beforeLast '.' (getFilenameName f) with
    | none => left; exact ⟨rfl, (b2 hb).1⟩
    | some r => right; exact ⟨_, rfl, b1⟩

/-! ### C74: splitting and joining -/

/-- Components joined by slashes, without a leading one. -/
def slashJoin : List Str → Str
  | [] => []
  | x :: xs => x ++ (xs.map (fun c => '/' :: c)).flatten

theorem splitOn_ne_nil (s : Str) : splitOn s ≠ [] := by
  cases s with
  | nil => simp [splitOn]
  | cons a s =>
    unfold splitOn
    split
    · simp
    · split <;> simp

theorem splitOn_cons_slash {a : Char} (h : isSlash a = true) (s : Str) :
    splitOn (a :: s) = [] :: splitOn s := by
  rw [splitOn, if_pos h]

theorem splitOn_cons_other {a : Char} (h : isSlash a = false) {s x : Str} {xs : List Str}
    (e : splitOn s = x :: xs) : splitOn (a :: s) = (a :: x) :: xs := by
  rw [splitOn, if_neg (by simp [h]), e]

theorem slashJoin_splitOn {s : Str} (h : '\\' ∉ s) : slashJoin (splitOn s) = s := by
  induction s with
  | nil => rfl
  | cons a s ih =>
    simp only [List.mem_cons, not_or] at h
    have ih := ih h.2
    obtain ⟨x, xs, e⟩ := List.exists_cons_of_ne_nil (splitOn_ne_nil s)
    by_cases hs : isSlash a = true
    · have ha : a = '/' := by
        simp only [isSlash, Bool.or_eq_true, beq_iff_eq] at hs
        rcases hs with hs | hs
        · exact hs
        · exact absurd hs.symm h.1
      rw [splitOn_cons_slash hs, e]
      rw [e] at ih
      subst ha
      simp only [slashJoin, List.map_cons, List.flatten_cons, List.nil_append, List.cons_append] at *
      rw [ih]
    · rw [splitOn_cons_other (by simpa using hs) e]
      rw [e] at ih
      simp only [slashJoin, List.cons_append] at *
      rw [ih]

theorem splitOn_noSlash (s : Str) : ∀ x ∈ splitOn s, ∀ c ∈ x, isSlash c = false := by
  induction s with
  | nil => simp [splitOn]
  | cons a s ih =>
    obtain ⟨x, xs, e⟩ := List.exists_cons_of_ne_nil (splitOn_ne_nil s)
    by_cases hs : isSlash a = true
    · rw [splitOn_cons_slash hs]
      intro y hy
      rcases List.mem_cons.1 hy with rfl | hy
      · simp
      · exact ih y hy
    · rw [splitOn_cons_other (by simpa using hs) e]
      rw [e] at ih
      intro y hy
      rcases List.mem_cons.1 hy with rfl | hy
      · intro c hc
        rcases List.mem_cons.1 hc with rfl | hc
        · simpa using hs
        · exact ih x (by simp) c hc
      · exact ih y (by simp [hy])

theorem splitOn_plain {x : Str} (h : ∀ c ∈ x, isSlash c = false) : splitOn x = [x] := by
  induction x with
  | nil => rfl
  | cons a x ih =>
    have := ih (fun c hc => h c (by simp [hc]))
    exact splitOn_cons_other (h a (by simp)) this

theorem splitOn_append {x : Str} (h : ∀ c ∈ x, isSlash c = false) (t : Str) :
    splitOn (x ++ '/' :: t) = x :: splitOn t := by
  induction x with
  | nil => exact splitOn_cons_slash rfl t
  | cons a x ih =>
    have := ih (fun c hc => h c (by simp [hc]))
    exact splitOn_cons_other (h a (by simp)) this

theorem splitOn_slashJoin {x : Str} {xs : List Str}
    (h : ∀ y ∈ x :: xs, ∀ c ∈ y, isSlash c = false) : splitOn (slashJoin (x :: xs)) = x :: xs := by
  induction xs generalizing x with
  | nil => simpa [slashJoin] using splitOn_plain (h x (by simp))
  | cons y ys ih =>
    have e : slashJoin (x :: y :: ys) = x ++ '/' :: slashJoin (y :: ys) := by simp [slashJoin]
    rw [e, splitOn_append (h x (by simp)), ih (fun z hz => h z (by simp [hz]))]

theorem joinPath_cons (r : Str) (cs : List Str) : joinPath (r :: cs) = r ++ slashJoin cs := by
  cases cs with
  | nil => simp [joinPath, slashJoin]
  | cons c cs => simp [joinPath, slashJoin, List.append_assoc]

theorem slashJoin_rest {c : Str} (h : '\\' ∉ c) : slashJoin (restComponents c) = c := by
  unfold restComponents
  split
  · rename_i e; rw [e]; rfl
  · exact slashJoin_splitOn h

/-- The root and the remaining text give back the path, except for `~name` without a slash (and for
    backslashes, which become slashes). -/
theorem splitRoot_append {p : Str} (hb : '\\' ∉ p) (ht : p.head? = some '~' → p[1]? ≠ some ':' → '/' ∈ p) :
    (splitRoot p).1 ++ (splitRoot p).2 = p ∧ '\\' ∉ (splitRoot p).2 := by
  unfold splitRoot
  split
  · exact ⟨rfl, fun h => hb (by simp [h])⟩
  · exact absurd (by simp) hb
  · exact ⟨rfl, fun h => hb (by simp [h])⟩
  · exact absurd (by simp) hb
  · exact ⟨rfl, fun h => hb (by simp [h])⟩
  · exact absurd (by simp) hb
  · exact ⟨rfl, fun h => hb (by simp [h])⟩
  · rename_i r h1 h2 h3
    have hs : '/' ∈ r := by
      have := ht rfl (by
        intro e
        cases r with
        | nil => simp at e
        | cons x r =>
          simp at e; subst e
          exact h3 r rfl)
      simpa using this
    obtain ⟨a1, a2, a3⟩ := beforeFirst_spec '/' r
    rcases a3 with a3 | a3
    · rw [a3, List.append_nil] at a2
      rw [a2] at hs; exact absurd hs a1
    · obtain ⟨t, et⟩ : ∃ t, fromFirst '/' r = '/' :: t := by
        cases hf : fromFirst '/' r with
        | nil => rw [hf] at a3; simp at a3
        | cons x t => rw [hf] at a3; simp at a3; exact ⟨t, by rw [a3]⟩
      refine ⟨?_, ?_⟩
      · rw [et] at a2 ⊢
        conv => rhs; rw [a2]
        simp
      · rw [et]
        intro h
        apply hb
        rw [a2, et]
        simp at h
        simp [h]
  · exact ⟨rfl, hb⟩

/-- C74: splitting a path and joining the components gives back the path, for every path without
    backslashes other than a bare `~name`. -/
theorem C74_join_split {p : Str} (hb : '\\' ∉ p)
    (ht : p.head? = some '~' → p[1]? ≠ some ':' → '/' ∈ p) : joinPath (splitPathRaw p) = p := by
  obtain ⟨h1, h2⟩ := splitRoot_append hb ht
  unfold splitPathRaw
  rw [joinPath_cons, slashJoin_rest h2, h1]

example : splitPathRaw (c!"~user/x//y/") = [c!"~user/", c!"x", [], c!"y", []] ∧
    joinPath (splitPathRaw (c!"~user/x//y/")) = c!"~user/x//y/" := by decide +kernel

/-- The excluded case really fails: a bare home directory gains a slash. -/
theorem C74_bare_tilde : joinPath (splitPathRaw (c!"~")) = c!"~/" := by decide +kernel

/-! ### C75: CollapseFullPath -/

/-- A component that names a directory entry. -/
structure Plain (x : Str) : Prop where
  ne : x ≠ []
  notDot : x ≠ c!"."
  notUp : x ≠ c!".."
  noSlash : ∀ c ∈ x, isSlash c = false

/-- A canonical absolute path: a root and plain names separated by single slashes. -/
def Canonical (q : Str) : Prop :=
  ∃ (root : Str) (names : List Str), (root = c!"/" ∨ root = c!"//") ∧ (∀ n ∈ names, Plain n) ∧
    q = root ++ slashJoin names

theorem append_plain (r : Str) : ∀ (cs ns : List Str), (∀ n ∈ ns, Plain n) →
    (∀ c ∈ cs, ∀ x ∈ c, isSlash x = false) →
    ∃ ns', appendComponents (r :: ns) cs = r :: ns' ∧ ∀ n ∈ ns', Plain n := by
  intro cs
  induction cs with
  | nil => intro ns h _; exact ⟨ns, rfl, h⟩
  | cons c cs ih =>
    intro ns hn hc
    have hc' : ∀ d ∈ cs, ∀ x ∈ d, isSlash x = false := fun d hd => hc d (by simp [hd])
    unfold appendComponents
    by_cases h1 : c = c!".."
    · rw [if_pos h1]
      cases ns with
      | nil => simpa using ih [] (by simp) hc'
      | cons n ns =>
        rw [if_pos (by simp)]
        have e : (r :: n :: ns).dropLast = r :: (n :: ns).dropLast := by simp
        rw [e]
        exact ih _ (fun m hm => hn m ((List.dropLast_subset _) hm)) hc'
    · rw [if_neg h1]
      by_cases h2 : c ≠ [] ∧ c ≠ c!"."
      · rw [if_pos h2]
        have e : r :: ns ++ [c] = r :: (ns ++ [c]) := rfl
        rw [e]
        refine ih _ ?_ hc'
        intro m hm
        rcases List.mem_append.1 hm with hm | hm
        · exact hn m hm
        · simp at hm; subst hm
          exact ⟨h2.1, h2.2, h1, hc _ (by simp)⟩
      · rw [if_neg h2]; exact ih ns hn hc'

theorem append_plain_id (r : Str) : ∀ (cs ns : List Str), (∀ n ∈ cs, Plain n) →
    appendComponents (r :: ns) cs = r :: (ns ++ cs) := by
  intro cs
  induction cs with
  | nil => intro ns _; simp [appendComponents]
  | cons c cs ih =>
    intro ns h
    have hc := h c (by simp)
    unfold appendComponents
    rw [if_neg hc.notUp, if_pos ⟨hc.ne, hc.notDot⟩]
    have e : r :: ns ++ [c] = r :: (ns ++ [c]) := rfl
    rw [e, ih _ (fun n hn => h n (by simp [hn]))]
    simp

theorem rest_noSlash (c : Str) : ∀ x ∈ restComponents c, ∀ y ∈ x, isSlash y = false := by
  unfold restComponents
  split
  · simp
  · exact splitOn_noSlash c

/-- Every component but the first is free of slashes; the first is the root of the path or of the home
    directory that it starts with. -/
theorem splitPathF_shape (w : World) : ∀ (n : Nat) (p : Str) (cs : List Str), splitPathF w n p = some cs →
    ∃ (q r : Str) (rest : List Str), cs = r :: rest ∧ (∀ x ∈ rest, ∀ y ∈ x, isSlash y = false) ∧
      r = (splitRoot q).1 ∧ r.head? ≠ some '~' ∧ (q = p ∨ ∃ root, q = homeDir w root) := by
  intro n
  induction n with
  | zero => intro p cs h; simp [splitPathF] at h
  | succ n ih =>
    intro p cs h
    unfold splitPathF at h
    simp only at h
    split at h
    · split at h
      · simp at h
      · rename_i comps hc
        cases h
        obtain ⟨q, r, rest, rfl, h1, h2, h3, h4⟩ := ih _ _ hc
        refine ⟨q, r, rest ++ restComponents _, rfl, ?_, h2, h3, ?_⟩
        · intro x hx
          rcases List.mem_append.1 hx with hx | hx
          · exact h1 x hx
          · exact rest_noSlash _ x hx
        · rcases h4 with h4 | h4
          · exact Or.inr ⟨_, h4⟩
          · exact Or.inr h4
    · rename_i ht
      cases h
      exact ⟨p, _, _, rfl, rest_noSlash _, rfl, ht, Or.inl rfl⟩

/-- No drive letter: the second character is not a colon. -/
def NoDrive (p : Str) : Prop := p[1]? ≠ some ':'

/-- The root of a path without drive letter is empty, a slash, a double slash or a home reference. -/
theorem splitRoot_noDrive {p : Str} (h : NoDrive p) : (splitRoot p).1 = [] ∨ (splitRoot p).1 = c!"/" ∨
    (splitRoot p).1 = c!"//" ∨ (splitRoot p).1.head? = some '~' := by
  unfold splitRoot
  split <;> simp_all [NoDrive]

theorem splitRoot_single {a : Char} (h : a ≠ '/') (t : Str) :
    splitRoot ('/' :: a :: t) = (c!"/", a :: t) := by
  unfold splitRoot
  split
  case h_3 => rename_i e; cases e; rfl
  case h_9 => simp_all
  all_goals (rename_i e; cases e <;> simp_all)

theorem splitRoot_abs {p : Str} (h : p.head? = some '/') : (splitRoot p).1 = c!"/" ∨ (splitRoot p).1 = c!"//" := by
  cases p with
  | nil => simp at h
  | cons a p =>
    simp at h; subst h
    cases p with
    | nil => left; rfl
    | cons b p =>
      by_cases hb : b = '/'
      · subst hb; right; rfl
      · left; rw [splitRoot_single hb]

theorem canonical_split {root : Str} {names : List Str} (hr : root = c!"/" ∨ root = c!"//")
    (hn : ∀ n ∈ names, Plain n) : splitRoot (root ++ slashJoin names) = (root, slashJoin names) ∧
    restComponents (slashJoin names) = names := by
  have hfirst : ∀ c, (slashJoin names).head? = some c → isSlash c = false := by
    intro c hc
    cases names with
    | nil => simp [slashJoin] at hc
    | cons n ns =>
      have hp := hn n (by simp)
      cases n with
      | nil => exact absurd rfl hp.ne
      | cons a n =>
        simp [slashJoin] at hc; subst hc
        exact hp.noSlash _ (by simp)
  constructor
  · cases hj : slashJoin names with
    | nil => rcases hr with rfl | rfl <;> rfl
    | cons a t =>
      have ha := hfirst a (by rw [hj]; rfl)
      have ha' : a ≠ '/' := by rintro rfl; simp [isSlash] at ha
      rcases hr with rfl | rfl
      · show splitRoot ('/' :: a :: t) = _
        exact splitRoot_single ha' t
      · rfl
  · cases names with
    | nil => rfl
    | cons n ns =>
      have hp := hn n (by simp)
      unfold restComponents
      rw [if_neg]
      · exact splitOn_slashJoin (fun y hy => (hn y hy).noSlash)
      · cases n with
        | nil => exact absurd rfl hp.ne
        | cons a n => simp [slashJoin]

theorem collapse_canonical {w : World} (ht : w.translation = []) {q : Str} (hq : Canonical q)
    (n : Nat) (base : Option Str) : collapseFullPathF w (n + 1) q base = some q := by
  obtain ⟨root, names, hr, hn, rfl⟩ := hq
  obtain ⟨h1, h2⟩ := canonical_split hr hn
  have hne : root ≠ [] := by rcases hr with rfl | rfl <;> simp
  have htil : root.head? ≠ some '~' := by rcases hr with rfl | rfl <;> simp
  have hs : splitPathF w (n + 1) (root ++ slashJoin names) = some (root :: names) := by
    unfold splitPathF
    rw [h1]
    simp only [if_neg htil, h2]
  have ha : appendComponents [] (root :: names) = root :: names := by
    have e : appendComponents [] (root :: names) = appendComponents [root] names := by
      rcases hr with rfl | rfl <;> rfl
    rw [e, append_plain_id root names [] hn]; rfl
  unfold collapseFullPathF
  simp only [hs, if_neg hne, ha, joinPath_cons]
  congr 1
  unfold checkTranslationPath
  rw [ht]
  split
  · rfl
  · simp

/-- C75: with an absolute base (working directory), no drive letter in the path, base or home
    directories, and no registered path translations, CollapseFullPath returns a canonical absolute path,
    and collapsing a collapsed path changes nothing. -/
theorem C75_collapse_canonical_partial {w : World} (ht : w.translation = []) {p b q : Str} {n : Nat}
    (hb : b.head? = some '/') (hp : NoDrive p)
    (hh : ∀ v, (w.env (c!"HOME") = some v ∨ ∃ u, w.pwdir u = some v) → NoDrive v)
    (h : collapseFullPathF w n p (some b) = some q) :
    Canonical q ∧ ∀ (m : Nat) (base : Option Str), collapseFullPathF w (m + 1) q base = some q := by
  have hcan : Canonical q := by
    unfold collapseFullPathF at h
    split at h
    · simp at h
    · rename_i comps hc
      obtain ⟨q', r, rest, rfl, hrest, hr, hnt, hq'⟩ := splitPathF_shape w _ _ _ hc
      have hnd : NoDrive q' := by
        rcases hq' with rfl | ⟨root, rfl⟩
        · exact hp
        · unfold homeDir
          have key : ∀ x : Str, (x = [] ∨ NoDrive x) →
              NoDrive (match x.getLast? with | some c => if isSlash c then x.dropLast else x | none => x) := by
            intro x hx
            have : NoDrive x := by
              rcases hx with rfl | hx
              · simp [NoDrive]
              · exact hx
            split
            · split
              · unfold NoDrive at *
                intro e
                apply this
                rw [List.getElem?_dropLast] at e
                split at e
                · exact e
                · simp at e
              · exact this
            · exact this
          simp only
          apply key
          split
          · cases hv : w.env (c!"HOME") with
            | none => left; rfl
            | some v => right; exact hh v (Or.inl hv)
          · cases hv : w.pwdir (root.drop 1) with
            | none => left; rfl
            | some v => right; exact hh v (Or.inr ⟨_, hv⟩)
      have hroot := splitRoot_noDrive hnd
      rw [← hr] at hroot
      have fin : ∀ (r0 : Str) (ns : List Str), (r0 = c!"/" ∨ r0 = c!"//") → (∀ n ∈ ns, Plain n) →
          Canonical (checkTranslationPath w (joinPath (r0 :: ns))) := by
        intro r0 ns h1 h2
        refine ⟨r0, ns, h1, h2, ?_⟩
        rw [joinPath_cons]
        unfold checkTranslationPath
        rw [ht]
        split
        · rfl
        · simp
      simp only at h
      by_cases hr0 : r = []
      · rw [if_pos hr0] at h
        split at h
        · simp at h
        · rename_i out ho
          split at ho
          · simp at ho
          · simp at ho
          · rename_i b0 bs hbs
            cases ho
            cases h
            obtain ⟨qb, rb, restb, he, hrestb, hrb, hntb, hqb⟩ := splitPathF_shape w _ _ _ hbs
            cases he
            have hb0 : b0 = c!"/" ∨ b0 = c!"//" := by
              cases hn' : n with
              | zero => rw [hn'] at hbs; simp [splitPathF] at hbs
              | succ m =>
                rw [hn'] at hbs
                have := splitRoot_abs hb
                unfold splitPathF at hbs
                simp only at hbs
                rw [if_neg (by rcases this with e | e <;> rw [e] <;> simp)] at hbs
                cases hbs
                exact this
            obtain ⟨ns, e1, p1⟩ := append_plain b0 bs [] (by simp) hrestb
            rw [e1]
            have hall : ∀ x ∈ r :: rest, ∀ y ∈ x, isSlash y = false := by
              intro x hx
              rcases List.mem_cons.1 hx with rfl | hx
              · rw [hr0]; simp
              · exact hrest x hx
            obtain ⟨ns', e2, p2⟩ := append_plain b0 (r :: rest) ns p1 hall
            rw [e2]
            exact fin b0 ns' hb0 p2
      · rw [if_neg hr0] at h
        simp only at h
        cases h
        have hr' : r = c!"/" ∨ r = c!"//" := by
          rcases hroot with h | h | h | h
          · exact absurd h hr0
          · exact Or.inl h
          · exact Or.inr h
          · exact absurd h hnt
        have e : appendComponents [] (r :: rest) = appendComponents [r] rest := by
          rcases hr' with rfl | rfl <;> rfl
        rw [e]
        obtain ⟨ns, e1, p1⟩ := append_plain r rest [] (by simp) hrest
        rw [e1]
        exact fin r ns hr' p1
  exact ⟨hcan, fun m base => collapse_canonical ht hcan m base⟩

example : collapseFullPathF { env := fun k => if k = c!"HOME" then some (c!"/home/me/") else none } 2
    (c!"~/a/./b//../c") (some (c!"/work")) = some (c!"/home/me/a/c") ∧
    collapseFullPathF {} 2 (c!"../x/.//y") (some (c!"/work/dir")) = some (c!"/work/x/y") := by decide +kernel

/-- Without the drive-letter hypothesis the result need not be absolute, although "a:b" is an ordinary
    relative file name on this platform. -/
theorem C75_refuted : collapseFullPathF {} 2 (c!"a:b") (some (c!"/work")) = some (c!"a:b") := by
  decide +kernel

theorem appendComponents_append (out a b : List Str) :
    appendComponents out (a ++ b) = appendComponents (appendComponents out a) b := by
  induction a generalizing out with
  | nil => rfl
  | cons c a ih =>
    simp only [List.cons_append, appendComponents]
    split
    · exact ih _
    · split <;> exact ih _

theorem append_up_noop {out : List Str} (ho : out ≠ []) {x : Str} (hx : Plain x) :
    appendComponents out [x, c!".."] = out := by
  unfold appendComponents
  rw [if_neg hx.notUp, if_pos ⟨hx.ne, hx.notDot⟩]
  unfold appendComponents
  rw [if_pos rfl]
  have : 1 < (out ++ [x]).length := by
    have : 0 < out.length := List.length_pos_iff.2 ho
    simp; exact this
  rw [if_pos this]
  simp [appendComponents]

theorem splitOn_append_any (c t : Str) : splitOn (c ++ '/' :: t) = splitOn c ++ splitOn t := by
  induction c with
  | nil => exact splitOn_cons_slash rfl t
  | cons a c ih =>
    obtain ⟨x, xs, e⟩ := List.exists_cons_of_ne_nil (splitOn_ne_nil c)
    by_cases hs : isSlash a = true
    · rw [List.cons_append, splitOn_cons_slash hs, splitOn_cons_slash hs, ih]; rfl
    · have hs : isSlash a = false := by simpa using hs
      rw [splitOn_cons_other hs e]
      rw [e] at ih
      exact splitOn_cons_other hs ih

/-- Extending a path (that does not start with `~` and has text after its root) extends that text. -/
theorem splitRoot_extend {p : Str} (h : (splitRoot p).2 ≠ []) (hd : NoDrive p) (ht : p.head? ≠ some '~')
    (t : Str) : splitRoot (p ++ '/' :: t) = ((splitRoot p).1, (splitRoot p).2 ++ '/' :: t) := by
  cases p with
  | nil => exact absurd rfl h
  | cons a p =>
    cases p with
    | nil =>
      by_cases h1 : a = '/'
      · subst h1; exact absurd rfl h
      · by_cases h2 : a = '\\'
        · subst h2; exact absurd rfl h
        · by_cases h3 : a = '~'
          · subst h3; exact absurd rfl ht
          · have e1 : splitRoot [a] = ([], [a]) := by
              unfold splitRoot
              split <;> simp_all
            have e2 : splitRoot (a :: '/' :: t) = ([], a :: '/' :: t) := by
              unfold splitRoot
              split
              case h_9 => rfl
              all_goals (rename_i e; cases e <;> simp_all)
            rw [e1]; exact e2
    | cons b p =>
      have hb : b ≠ ':' := by rintro rfl; exact hd rfl
      have key : ∀ q : Str, splitRoot (a :: b :: q) =
          if a = '/' ∧ b = '/' then (c!"//", q) else if a = '\\' ∧ b = '\\' then (c!"//", q)
          else if a = '/' ∨ a = '\\' then (c!"/", b :: q) else ([], a :: b :: q) := by
        intro q
        have ha : a ≠ '~' := by rintro rfl; exact ht rfl
        unfold splitRoot
        split
        case h_9 => 
          rename_i x1 x2 x3 x4 x5 x6 x7 x8
          rw [if_neg, if_neg, if_neg]
          · rintro (rfl | rfl)
            · exact x3 _ rfl
            · exact x4 _ rfl
          · rintro ⟨rfl, rfl⟩; exact x2 _ rfl
          · rintro ⟨rfl, rfl⟩; exact x1 _ rfl
        case h_1 => rename_i e; cases e; simp
        case h_2 => rename_i e; cases e; simp
        case h_3 =>
          rename_i x1 e
          cases e
          rw [if_neg, if_neg (by simp), if_pos (by simp)]
          rintro ⟨_, rfl⟩; exact x1 _ rfl
        case h_4 =>
          rename_i x2 e
          cases e
          rw [if_neg (by simp), if_neg, if_pos (by simp)]
          rintro ⟨_, rfl⟩; exact x2 _ rfl
        all_goals (rename_i e; cases e; first | exact absurd rfl hb | exact absurd rfl ha)
      have k1 := key p
      have k2 := key (p ++ '/' :: t)
      rw [List.cons_append, List.cons_append, k2, k1]
      split
      · rfl
      · split
        · rfl
        · split <;> rfl

/-- C75: a component followed by ".." cancels: `p/x/..` collapses to what `p` collapses to. -/
theorem C75_up_cancels (w : World) {p x : Str} (hp : p ≠ []) (hl : ∀ c, p.getLast? = some c → isSlash c = false)
    (hd : NoDrive p) (ht : p.head? ≠ some '~') (hx : Plain x) (n : Nat) (base : Option Str) :
    collapseFullPathF w n (p ++ '/' :: (x ++ '/' :: c!"..")) base = collapseFullPathF w n p base := by
  have hrest : (splitRoot p).2 ≠ [] := by
    intro e
    have hr := splitRoot_noDrive hd
    unfold splitRoot at e
    split at e
    · subst e; have := hl '/' rfl; simp [isSlash] at this
    · subst e; have := hl '\\' rfl; simp [isSlash] at this
    · subst e; have := hl '/' rfl; simp [isSlash] at this
    · subst e; have := hl '\\' rfl; simp [isSlash] at this
    · exact hd rfl
    · exact hd rfl
    · exact hd rfl
    · exact ht rfl
    · exact hp e
  cases n with
  | zero => rfl
  | succ n =>
    have hroot := splitRoot_noDrive hd
    have e1 := splitRoot_extend hrest hd ht (x ++ '/' :: c!"..")
    have nt : (splitRoot p).1.head? ≠ some '~' := by
      unfold splitRoot
      split <;> simp_all [NoDrive]
    have s1 : splitPathF w (n + 1) p = some ((splitRoot p).1 :: restComponents (splitRoot p).2) := by
      unfold splitPathF
      simp only [if_neg nt]
    have s2 : splitPathF w (n + 1) (p ++ '/' :: (x ++ '/' :: c!"..")) =
        some ((splitRoot p).1 :: (restComponents (splitRoot p).2 ++ [x, c!".."])) := by
      unfold splitPathF
      rw [e1]
      simp only [if_neg nt]
      congr 2
      unfold restComponents
      rw [if_neg hrest, if_neg (by simp), splitOn_append_any, splitOn_append hx.noSlash]
      rfl
    have hne : ∀ (out cs : List Str), (out ≠ [] ∨ ∃ c cs', cs = c :: cs' ∧ c ≠ [] ∧ c ≠ c!"." ∧ c ≠ c!"..") →
        appendComponents out cs ≠ [] := by
      intro out cs
      induction cs generalizing out with
      | nil =>
        intro h
        rcases h with h | ⟨_, _, h, _⟩
        · exact h
        · simp at h
      | cons c cs ih =>
        intro h
        have hout : out ≠ [] → appendComponents out (c :: cs) ≠ [] := by
          intro ho
          unfold appendComponents
          split
          · apply ih; left
            split
            · rename_i hl
              intro e
              have : out.dropLast.length = 0 := by rw [e]; rfl
              simp at this; omega
            · exact ho
          · split
            · apply ih; left; simp
            · apply ih; left; exact ho
        rcases h with h | ⟨c', cs', e, h1, h2, h3⟩
        · exact hout h
        · cases e
          unfold appendComponents
          rw [if_neg h3, if_pos ⟨h1, h2⟩]
          apply ih; left; simp
    unfold collapseFullPathF
    rw [s1, s2]
    have happ : ∀ out : List Str, (out ≠ [] ∨ (splitRoot p).1 ≠ []) →
        appendComponents out ((splitRoot p).1 :: (restComponents (splitRoot p).2 ++ [x, c!".."])) =
        appendComponents out ((splitRoot p).1 :: restComponents (splitRoot p).2) := by
      intro out ho
      rw [← List.cons_append, appendComponents_append]
      apply append_up_noop _ hx
      apply hne
      rcases ho with ho | ho
      · left; exact ho
      · right
        refine ⟨_, _, rfl, ho, ?_, ?_⟩
        · rcases hroot with h | h | h | h
          · rw [h]; simp
          · rw [h]; simp
          · rw [h]; simp
          · exact absurd h nt
        · rcases hroot with h | h | h | h
          · rw [h]; simp
          · rw [h]; simp
          · rw [h]; simp
          · exact absurd h nt
    simp only
    by_cases hr0 : (splitRoot p).1 = []
    · rw [if_pos hr0]
      split
      · rfl
      · rename_i out ho
        have hout : out ≠ [] := by
          split at ho
          · cases ho; simp
          · split at ho
            · simp at ho
            · simp at ho
            · cases ho
              apply hne; left; simp
        rw [happ out (Or.inl hout)]
    · rw [if_neg hr0]
      simp only
      rw [happ [] (Or.inr hr0)]

example : collapseFullPathF {} 2 (c!"/a/b/tmp/..") none = some (c!"/a/b") ∧
    Plain (c!"tmp") := ⟨by decide +kernel, by decide, by decide, by decide, by decide⟩

/-! ### C76: home directory references -/

/-- C76 is false as the documentation reads ("~/x" denotes x in the home directory): with HOME=/ the
    home directory is taken to be the working directory. -/
theorem C76_refuted : ∃ w : World, w.env (c!"HOME") = some (c!"/") ∧
    collapseFullPathF w 2 (c!"~/x") (some (c!"/work")) = some (c!"/work/x") := by
  refine ⟨{ env := fun k => if k = c!"HOME" then some (c!"/") else none }, by decide +kernel, by decide +kernel⟩

/-- C76 for absolute home directories other than "/": `~/x` collapses to what HOME/x collapses to. -/
theorem C76_home_partial (w : World) {home x : Str} (hw : w.env (c!"HOME") = some home)
    (habs : home.head? = some '/') (hne : (splitRoot home).2 ≠ [])
    (hl : ∀ c, home.getLast? = some c → isSlash c = false) (hd : NoDrive home)
    (n : Nat) (base : Option Str) :
    collapseFullPathF w (n + 2) ('~' :: '/' :: x) base = collapseFullPathF w (n + 2) (home ++ '/' :: x) base := by
  have hhd : homeDir w (c!"~") = home := by
    unfold homeDir
    simp only [List.length_cons, List.length_nil, if_true, hw, Option.getD_some]
    cases hg : home.getLast? with
    | none => rfl
    | some c => simp [hl c hg]
  have ht : home.head? ≠ some '~' := by rw [habs]; simp
  have hroot := splitRoot_abs habs
  have nt : (splitRoot home).1.head? ≠ some '~' := by rcases hroot with h | h <;> rw [h] <;> simp
  have r0 : (splitRoot home).1 ≠ [] := by rcases hroot with h | h <;> rw [h] <;> simp
  have e1 : splitRoot ('~' :: '/' :: x) = (c!"~/", x) := by
    unfold splitRoot
    split
    case h_8 => rename_i e; cases e; rfl
    case h_9 => simp_all
    all_goals (rename_i e; cases e)
  have s1 : splitPathF w (n + 2) ('~' :: '/' :: x) =
      some ((splitRoot home).1 :: (restComponents (splitRoot home).2 ++ restComponents x)) := by
    unfold splitPathF
    rw [e1]
    simp only [List.head?_cons, if_true]
    have : (c!"~/").dropLast = c!"~" := rfl
    rw [this, hhd]
    unfold splitPathF
    simp only [if_neg nt]
    rfl
  have s2 : splitPathF w (n + 2) (home ++ '/' :: x) =
      some ((splitRoot home).1 :: (restComponents (splitRoot home).2 ++ splitOn x)) := by
    unfold splitPathF
    rw [splitRoot_extend hne hd ht]
    simp only [if_neg nt]
    congr 2
    unfold restComponents
    rw [if_neg hne, if_neg (by simp), splitOn_append_any]
  unfold collapseFullPathF
  rw [s1, s2]
  simp only [if_neg r0]
  congr 3
  rw [← List.cons_append, ← List.cons_append, appendComponents_append, appendComponents_append]
  by_cases hx : x = []
  · subst hx
    simp [restComponents, splitOn, appendComponents]
  · rw [show restComponents x = splitOn x by simp [restComponents, hx]]

example : ∃ w : World, w.env (c!"HOME") = some (c!"/home/me") ∧
    collapseFullPathF w 2 (c!"~/a/../b") (some (c!"/work")) = some (c!"/home/me/b") ∧
    (splitRoot (c!"/home/me")).2 ≠ [] := by
  refine ⟨{ env := fun k => if k = c!"HOME" then some (c!"/home/me") else none }, ?_, ?_, ?_⟩ <;>
    decide +kernel

/-! ### C77: termination of SplitPath -/

/-- C77 is false: with HOME=~ SplitPath( "~" ) recurses for ever (no recursion depth suffices). -/
theorem C77_refuted : ∃ w : World, ∀ n, splitPathF w n (c!"~") = none := by
  refine ⟨{ env := fun k => if k = c!"HOME" then some (c!"~") else none }, ?_⟩
  intro n
  induction n with
  | zero => rfl
  | succ n ih =>
    unfold splitPathF
    have e : splitRoot (c!"~") = (c!"~/", []) := by decide +kernel
    rw [e]
    simp only [List.head?_cons, if_true]
    have h : homeDir { env := fun k => if k = c!"HOME" then some (c!"~") else none } ((c!"~/").dropLast) = c!"~" := by
      decide +kernel
    rw [h, ih]

/-- C77 when no home directory begins with `~`: SplitPath returns for every path, after at most one
    recursive call. -/
theorem C77_split_terminates_partial (w : World)
    (hh : ∀ v, (w.env (c!"HOME") = some v ∨ ∃ u, w.pwdir u = some v) → v.head? ≠ some '~')
    (p : Str) (n : Nat) : ∃ cs, cs ≠ [] ∧ splitPathF w (n + 2) p = some cs := by
  have hroot : ∀ q : Str, q.head? ≠ some '~' → (splitRoot q).1.head? ≠ some '~' := by
    intro q hq
    unfold splitRoot
    split <;> simp_all
  have hhome : ∀ r, (homeDir w r).head? ≠ some '~' := by
    intro r
    unfold homeDir
    have key : ∀ x : Str, x.head? ≠ some '~' →
        (match x.getLast? with | some c => if isSlash c then x.dropLast else x | none => x).head? ≠ some '~' := by
      intro x hx
      split
      · split
        · intro e; apply hx
          cases x with
          | nil => simp at e
          | cons a x =>
            cases x with
            | nil => simp at e
            | cons b x => simpa using e
        · exact hx
      · exact hx
    simp only
    apply key
    split
    · cases hv : w.env (c!"HOME") with
      | none => simp
      | some v => exact hh v (Or.inl hv)
    · cases hv : w.pwdir (r.drop 1) with
      | none => simp
      | some v => exact hh v (Or.inr ⟨_, hv⟩)
  unfold splitPathF
  simp only
  split
  · unfold splitPathF
    simp only
    rw [if_neg (hroot _ (hhome _))]
    exact ⟨_, by simp, rfl⟩
  · exact ⟨_, by simp, rfl⟩

example : splitPathF { pwdir := fun u => if u = c!"root" then some (c!"/root/") else none } 2 (c!"~root/x")
    = some [c!"/", c!"root", c!"x"] := by decide +kernel

/-! ### C78: ConvertToUnixSlashes -/

/-- C78 is false: converting twice is not the same as converting once, and the result of one conversion
    can contain a double slash. -/
theorem C78_refuted (w : World) : convertToUnixSlashes w (c!"a\\/b") = c!"a//b" ∧
    convertToUnixSlashes w (c!"a//b") = c!"a/b" := by
  constructor <;> rfl

theorem slashify_back (p : Str) : ∀ (a b : Str), slashify p = a ++ '\\' :: b → b.head? = some ' ' := by
  induction p with
  | nil => intro a b h; cases a <;> simp [slashify] at h
  | cons x p ih =>
    intro a b h
    have hhead : ∀ q : Str, (slashify q).head? = some ' ' ↔ q.head? = some ' ' := by
      intro q
      cases q with
      | nil => simp [slashify]
      | cons y q =>
        simp only [slashify, List.head?_cons, Option.some.injEq]
        split
        · rename_i hy; rw [hy.1]; simp
        · rfl
    unfold slashify at h
    cases a with
    | nil =>
      simp only [List.nil_append, List.cons.injEq] at h
      obtain ⟨h1, rfl⟩ := h
      split at h1
      · simp at h1
      · rename_i hx
        subst h1
        rw [hhead]
        rcases Decidable.em (p.head? = some ' ') with h | h
        · exact h
        · exact absurd ⟨rfl, h⟩ hx
    | cons y a =>
      simp only [List.cons_append, List.cons.injEq] at h
      exact ih a b h.2

/-- A single trailing slash is dropped, except that of a drive root. -/
theorem convert_trailing (w : World) {p : Str} (h : SlashNormal p) (hp : p ≠ []) :
    convertToUnixSlashes w (p ++ ['/']) = if p.length = 2 ∧ p[1]? = some ':' then p ++ ['/'] else p := by
  have hb : '\\' ∉ p ++ ['/'] := by simp [h.noBack]
  have hd : ∀ a b : Str, p ++ ['/'] ≠ a ++ c!"//" ++ b := by
    intro a b e
    rcases List.eq_nil_or_concat b with rfl | ⟨b', x, rfl⟩
    · have : p ++ ['/'] = (a ++ ['/']) ++ ['/'] := by simpa using e
      have : p = a ++ ['/'] := List.append_cancel_right this
      exact h.noTrail (by simp [this])
    · have e' : p ++ ['/'] = (a ++ c!"//" ++ b') ++ [x] := by simpa using e
      exact h.noDouble a b' (List.append_inj_left' e' rfl)
  have h1 : adjacentSlashes (p ++ ['/']).tail = false := by
    cases e : adjacentSlashes (p ++ ['/']).tail with
    | false => rfl
    | true =>
      exfalso
      obtain ⟨a, b, e'⟩ := (adjacentSlashes_iff _).1 e
      cases p with
      | nil => exact hp rfl
      | cons x p => exact hd (x :: a) b (by simp only [List.cons_append, List.tail_cons] at e'; rw [List.cons_append, e']; rfl)
  have h2 : expandTilde w (p ++ ['/']) = p ++ ['/'] := by
    unfold expandTilde
    split
    · rename_i r e
      cases p with
      | nil => exact absurd rfl hp
      | cons x p => simp only [List.cons_append, List.cons.injEq] at e; exact absurd (by simp [e.1]) h.noTilde
    · rfl
  unfold convertToUnixSlashes
  simp only [slashify_eq hb, h1, Bool.false_eq_true, if_false, h2]
  unfold dropTrailingSlash
  have hl : 0 < p.length := List.length_pos_iff.2 hp
  by_cases hc : p.length = 2 ∧ p[1]? = some ':'
  · rw [if_pos hc, if_neg]
    rintro ⟨_, _, h3⟩
    apply h3
    refine ⟨by simp [hc.1], ?_⟩
    rw [List.getElem?_append_left (by omega)]
    exact hc.2
  · rw [if_neg hc, if_pos]
    · simp
    · refine ⟨by simp; omega, by simp, ?_⟩
      rintro ⟨h3, h4⟩
      simp only [List.length_append, List.length_cons, List.length_nil] at h3
      rw [List.getElem?_append_left (by omega)] at h4
      exact hc ⟨by omega, h4⟩

/-- C78, what holds: paths in slash normal form and the root are left alone, one trailing slash is
    dropped (except that of a drive root), and before home directory expansion no backslash survives
    other than one that escapes a blank. -/
theorem C78_unix_slashes_partial (w : World) (p : Str) :
    (SlashNormal p → convertToUnixSlashes w p = p) ∧ convertToUnixSlashes w (c!"/") = c!"/" ∧
    (SlashNormal p → p ≠ [] →
      convertToUnixSlashes w (p ++ ['/']) = if p.length = 2 ∧ p[1]? = some ':' then p ++ ['/'] else p) ∧
    (∀ a b : Str, slashify p = a ++ '\\' :: b → b.head? = some ' ') ∧
    (slashify p).length = p.length :=
  ⟨convert_normal w, by rfl, convert_trailing w, slashify_back p, by induction p with
    | nil => rfl
    | cons a p ih => simp [slashify, ih]⟩

/-! ### C79: FindFile -/

/-- C79 is false as documented ("searches the given path and then the system search path"): a file in a
    PATH directory hides the one in the caller's directory. -/
theorem C79_refuted : ∃ w : World, w.readable (c!"/cfg/sort") = true ∧ w.isDir (c!"/cfg/sort") = false ∧
    findFile w (c!"sort") [c!"/cfg"] false = c!"/bin/sort" := by
  refine ⟨{ env := fun k => if k = c!"PATH" then some (c!"/bin") else none
            readable := fun p => p == c!"/bin/sort" || p == c!"/cfg/sort" }, ?_⟩
  decide +kernel

theorem find?_first {α : Type} (f : α → Bool) (pre : List α) (a : α) (post : List α)
    (h : ∀ x ∈ pre, f x = false) (ha : f a = true) : (pre ++ a :: post).find? f = some a := by
  induction pre with
  | nil => simp [ha]
  | cons x pre ih =>
    rw [List.cons_append, List.find?_cons, h x (by simp)]
    exact ih (fun y hy => h y (by simp [hy]))

/-- C79 when the system directories hold no file of that name (or are not searched): the file is taken
    from the first of the caller's directories in which the name exists, if that is not a directory;
    the empty string is returned exactly when the name exists nowhere or that first hit is a directory. -/
theorem C79_find_file_partial (w : World) (name : Str) (dirs : List Str) (nosys : Bool) (hn : name ≠ [])
    (hsys : nosys = true ∨ ∀ d ∈ getPath w (c!"CMAKE_FILE_PATH") ++ getPath w (c!"PATH"),
      w.readable (withSlash d ++ name) = false) :
    (∀ (pre post : List Str) (d : Str), dirs = pre ++ d :: post →
      (∀ e ∈ pre, w.readable (withSlash e ++ name) = false) → w.readable (withSlash d ++ name) = true →
      findFile w name dirs nosys =
        if w.isDir (withSlash d ++ name) then [] else collapseFullPath w (withSlash d ++ name)) ∧
    ((∀ d ∈ dirs, w.readable (withSlash d ++ name) = false) → findFile w name dirs nosys = []) := by
  have hne : ∀ d : Str, withSlash d ++ name ≠ [] := by intro d e; simp at e; exact hn e.2
  have hfe : ∀ d : Str, fileExists w (withSlash d ++ name) = w.readable (withSlash d ++ name) := by
    intro d; simp only [fileExists, bne_iff_ne, ne_eq, hne d, not_false_eq_true, Bool.and_eq_right_iff_imp]
    simp
  constructor
  · rintro pre post d rfl hpre hd
    have hfn : findName w name (pre ++ d :: post) nosys = withSlash d ++ name := by
      unfold findName
      simp only
      rw [← List.append_assoc, List.map_append, List.map_cons, find?_first]
      · intro x hx
        obtain ⟨e, he, rfl⟩ := List.mem_map.1 hx
        rw [hfe]
        rcases List.mem_append.1 he with he | he
        · rcases hsys with h | h
          · rw [h] at he; simp at he
          · split at he
            · simp at he
            · exact h e he
        · exact hpre e he
      · rw [hfe]; exact hd
    unfold findFile
    simp only [hfn, fileIsDirectory]
    have hb : (withSlash d ++ name != []) = true := by simpa using hne d
    rw [hb]
    cases hdir : w.isDir (withSlash d ++ name) <;> simp [hn]
  · intro hd
    have hfn : findName w name dirs nosys = [] := by
      unfold findName
      simp only
      have : ((if nosys = true then [] else getPath w (c!"CMAKE_FILE_PATH") ++ getPath w (c!"PATH")) ++ dirs
          |>.map (fun p => withSlash p ++ name)).find? (fileExists w) = none := by
        rw [List.find?_eq_none]
        intro x hx
        obtain ⟨e, he, rfl⟩ := List.mem_map.1 hx
        rw [hfe]
        rcases List.mem_append.1 he with he | he
        · rcases hsys with h | h
          · rw [h] at he; simp at he
          · split at he
            · simp at he
            · simp [h e he]
        · simp [hd e he]
      rw [this]
    unfold findFile
    simp [hfn]

example : ∃ w : World, findFile w (c!"a.conf") [c!"/x", c!"/y/"] false = c!"/y/a.conf" ∧
    w.env (c!"PATH") = some (c!"/bin:/usr/bin") := by
  refine ⟨{ env := fun k => if k = c!"PATH" then some (c!"/bin:/usr/bin") else none
            readable := fun p => p == c!"/y/a.conf" }, ?_⟩
  decide +kernel

/-! ### C80: GetPath -/

theorem terminatedBy_spec (v acc : Str) (h : ':' ∉ acc) :
    (∀ d ∈ terminatedBy acc v, ':' ∉ d) ∧
    (v.getLast? = some ':' → ((terminatedBy acc v).map (fun d => d ++ [':'])).flatten = acc ++ v) := by
  induction v generalizing acc with
  | nil => simp [terminatedBy]
  | cons a v ih =>
    unfold terminatedBy
    split
    · rename_i ha; subst ha
      have := ih [] (by simp)
      refine ⟨?_, ?_⟩
      · intro d hd
        rcases List.mem_cons.1 hd with rfl | hd
        · exact h
        · exact this.1 d hd
      · intro hl
        simp only [List.map_cons, List.flatten_cons]
        cases v with
        | nil => simp [terminatedBy]
        | cons b v =>
          rw [this.2 (by simpa [List.getLast?_cons_cons] using hl)]
          simp
    · rename_i ha
      have hacc : ':' ∉ acc ++ [a] := by
        simp only [List.mem_append, List.mem_singleton, not_or]
        exact ⟨h, fun e => ha e.symm⟩
      have := ih (acc ++ [a]) hacc
      refine ⟨this.1, ?_⟩
      intro hl
      cases v with
      | nil => simp at hl; exact absurd hl ha
      | cons b v =>
        rw [this.2 (by simpa [List.getLast?_cons_cons] using hl)]
        simp

/-- C80: GetPath cuts the variable at its colons: the entries hold no colon, and each followed by a
    colon they give back the text, to which a final colon is added unless it ends in one or is empty. -/
theorem C80_get_path (w : World) (name : Str) :
    (w.env name = none → getPath w name = []) ∧
    (∀ v, w.env name = some v → ∃ parts : List Str,
      getPath w name = parts.map (convertToUnixSlashes w) ∧ (∀ d ∈ parts, ':' ∉ d) ∧
      ((parts.map (fun d => d ++ [':'])).flatten = v ++ [':'] ∧ v ≠ [] ∧ v.getLast? ≠ some ':' ∨
       (parts.map (fun d => d ++ [':'])).flatten = v ∧ (v = [] ∨ v.getLast? = some ':'))) := by
  constructor
  · intro h; simp [getPath, h]
  · intro v h
    refine ⟨splitColon v, by simp [getPath, h], (terminatedBy_spec _ [] (by simp)).1, ?_⟩
    unfold splitColon
    by_cases hv : v ≠ [] ∧ v.getLast? ≠ some ':'
    · left
      rw [if_pos hv]
      refine ⟨?_, hv⟩
      rw [(terminatedBy_spec _ [] (by simp)).2 (by simp)]; simp
    · right
      rw [if_neg hv]
      by_cases e : v = []
      · subst e; exact ⟨rfl, Or.inl rfl⟩
      · have hl : v.getLast? = some ':' := by
          rcases Decidable.em (v.getLast? = some ':') with h | h
          · exact h
          · exact absurd ⟨e, h⟩ hv
        refine ⟨?_, Or.inr hl⟩
        rw [(terminatedBy_spec _ [] (by simp)).2 hl]; simp

example : getPath { env := fun _ => some (c!"/a:/b/::c") } (c!"PATH") = [c!"/a", c!"/b", [], c!"c"] := by
  decide +kernel

end Vital.Sys
