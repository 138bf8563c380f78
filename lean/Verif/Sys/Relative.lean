import Verif.Sys.PathsProps
import Verif.Sys.Strings2
/-
  RelativePath of vital/kwiversys/SystemTools.cxx.
-/
namespace Vital.Sys
open Vital Vital.Strs

/-- Number of equal entries from the start. -/
-- models: vital/kwiversys/SystemTools.cxx:3705-3725 (the loop; both arrays have entries)
def sameCount : List Str → List Str → Nat
  | a :: l, b :: r => if a = b then sameCount l r + 1 else 0
  | _, _ => 0

-- models: vital/kwiversys/SystemTools.cxx:3757-3769 (a slash between entries unless there is one)
def joinLoop (acc : Str) : List Str → Str
  | [] => acc
  | x :: l => joinLoop ((if acc ≠ [] ∧ acc.getLast? ≠ some '/' then acc ++ ['/'] else acc) ++ x) l

-- models: vital/kwiversys/SystemTools.cxx:3683-3771 (RelativePath); entries that are common are blanked there, and dropped here
def relativePath (w : World) (loc rem : Str) : Str :=
  if !fileIsFullPath loc then []
  else if !fileIsFullPath rem then []
  else
    let ls := splitString (collapseFullPath w loc) '/' true
    let rs := splitString (collapseFullPath w rem) '/' true
    let k := sameCount ls rs
    if k = 0 then rem
    else joinLoop [] (((ls.drop k).filter (· ≠ [])).map (fun _ => c!"../") ++ (rs.drop k).filter (· ≠ []))

theorem sameCount_spec : ∀ (a b : List Str), ∃ p x y, a = p ++ x ∧ b = p ++ y ∧ p.length = sameCount a b
  | [], b => ⟨[], [], b, rfl, rfl, by cases b <;> rfl⟩
  | a :: l, [] => ⟨[], a :: l, [], rfl, rfl, rfl⟩
  | a :: l, b :: r => by
    by_cases h : a = b
    · obtain ⟨p, x, y, h1, h2, h3⟩ := sameCount_spec l r
      exact ⟨a :: p, x, y, by rw [h1]; rfl, by rw [h2, h]; rfl, by simp [sameCount, h, h3]⟩
    · exact ⟨[], a :: l, b :: r, rfl, rfl, by simp [sameCount, h]⟩

theorem joinWith_slash (a : Str) (l : List Str) : joinWith '/' (a :: l) = slashJoin (a :: l) := by
  induction l generalizing a with
  | nil => simp [joinWith, slashJoin]
  | cons b l ih => rw [joinWith_cons (by simp), ih]; simp [slashJoin]

/-- The entries of a canonical path. -/
theorem split_canonical {a : List Str} (ha : ∀ n ∈ a, Plain n) : splitString ('/' :: slashJoin a) '/' true = c!"/" :: (if a = [] then [[]] else a) := by
  have e : splitString ('/' :: slashJoin a) '/' true = c!"/" :: splitLoop '/' [] (slashJoin a) := rfl
  rw [e]
  cases a with
  | nil => rfl
  | cons x a =>
    rw [← joinWith_slash, splitLoop_exact '/' (x :: a) [] ?_ (by simp) ?_ x a rfl (.inr (.inl (ha x (by simp)).ne))]
    · simp
    · intro y hy hs
      have := (ha y hy).noSlash '/' hs
      cases this
    · intro y hy
      exact (ha y (List.mem_of_mem_dropLast hy)).ne

theorem joinLoop_up : ∀ (u : Nat) (acc : Str) (l : List Str), (acc = [] ∨ acc.getLast? = some '/') →
    joinLoop acc (List.replicate u (c!"../") ++ l) = joinLoop (acc ++ (List.replicate u (c!"../")).flatten) l
  | 0, acc, l, _ => by simp
  | u + 1, acc, l, h => by
    rw [List.replicate_succ, List.cons_append, joinLoop, if_neg (by rcases h with h | h <;> simp [h]), joinLoop_up u _ l (.inr (by simp))]
    simp

theorem joinLoop_names : ∀ (l : List Str) (acc : Str), (∀ n ∈ l, Plain n) → acc ≠ [] → acc.getLast? ≠ some '/' → joinLoop acc l = acc ++ (l.map (fun c => '/' :: c)).flatten
  | [], acc, _, _, _ => by simp [joinLoop]
  | x :: l, acc, h, h1, h2 => by
    have hx := h x (by simp)
    rw [joinLoop, if_pos ⟨h1, h2⟩, joinLoop_names l _ (fun n hn => h n (by simp [hn])) (by simp) ?_]
    · simp
    · rw [List.getLast?_append]
      cases hg : x.getLast? with
      | none => exact absurd (List.getLast?_eq_none_iff.1 hg) hx.ne
      | some c =>
        simp only [Option.some_or]
        intro e
        cases e
        have := hx.noSlash '/' (List.mem_of_getLast? hg)
        cases this

theorem joinLoop_all (u : Nat) (d : List Str) (hd : ∀ n ∈ d, Plain n) : joinLoop [] (List.replicate u (c!"../") ++ d) = (List.replicate u (c!"../")).flatten ++ slashJoin d := by
  rw [joinLoop_up u [] d (.inl rfl), List.nil_append]
  have hlast : (List.replicate u (c!"../")).flatten = [] ∨ ((List.replicate u (c!"../")).flatten).getLast? = some '/' := by
    cases u with
    | zero => exact .inl rfl
    | succ u => right; rw [List.replicate_succ']; simp
  cases d with
  | nil => simp [joinLoop, slashJoin]
  | cons x d =>
    have hx := hd x (by simp)
    rw [joinLoop, if_neg (by rcases hlast with h | h <;> simp [h]), joinLoop_names d _ (fun n hn => hd n (by simp [hn])) (by simp [hx.ne]) ?_]
    · simp [slashJoin]
    · rw [List.getLast?_append]
      cases hg : x.getLast? with
      | none => exact absurd (List.getLast?_eq_none_iff.1 hg) hx.ne
      | some c =>
        simp only [Option.some_or]
        intro e
        cases e
        have := hx.noSlash '/' (List.mem_of_getLast? hg)
        cases this

theorem splitOn_up (u : Nat) (t : Str) : splitOn ((List.replicate u (c!"../")).flatten ++ t) = List.replicate u (c!"..") ++ splitOn t := by
  induction u with
  | zero => simp
  | succ u ih =>
    rw [List.replicate_succ, List.flatten_cons]
    have e : c!"../" ++ (List.replicate u (c!"../")).flatten ++ t = c!".." ++ '/' :: ((List.replicate u (c!"../")).flatten ++ t) := by simp
    rw [e, splitOn_append (by decide), ih]
    simp [List.replicate_succ]

theorem append_ups (r : Str) : ∀ (u : Nat) (p x : List Str), x.length = u → appendComponents (r :: (p ++ x)) (List.replicate u (c!"..")) = r :: p := by
  intro u
  induction u with
  | zero => intro p x hx; have := List.eq_nil_of_length_eq_zero hx; subst this; simp [appendComponents]
  | succ u ih =>
    intro p x hx
    rcases List.eq_nil_or_concat x with rfl | ⟨y, c, rfl⟩
    · simp at hx
    · rw [List.concat_eq_append] at hx ⊢
      rw [List.replicate_succ, appendComponents, if_pos rfl, if_pos (by simp)]
      have e : (r :: (p ++ (y ++ [c]))).dropLast = r :: (p ++ y) := by
        rw [← List.append_assoc, ← List.cons_append, List.dropLast_concat]
      rw [e]
      exact ih p y (by simpa using hx)

/-- A relative text: its root is empty. -/
theorem splitRoot_relative {R : Str} (h1 : ∀ c, R.head? = some c → isSlash c = false ∧ c ≠ '~') (h2 : R[1]? ≠ some ':') : splitRoot R = ([], R) := by
  unfold splitRoot
  split
  · have := (h1 _ rfl).1; cases this
  · have := (h1 _ rfl).1; cases this
  · have := (h1 _ rfl).1; cases this
  · have := (h1 _ rfl).1; cases this
  · exact absurd rfl h2
  · exact absurd rfl h2
  · exact absurd rfl h2
  · exact absurd rfl (h1 _ rfl).2
  · rfl

/-- C190 (partial). For two full paths that collapse to `/`-rooted canonical paths: the result of RelativePath, collapsed from the first, is what the second collapses to; and it
climbs exactly out of the names of the first path that are not shared, and does not begin with a slash.
The names of the second path must not begin with `~` or have a colon second (CollapseFullPath takes these for home directories and drives). -/
theorem C190_relative_partial (w : World) (ht : w.translation = []) (loc rem : Str) (hl : fileIsFullPath loc = true) (hr : fileIsFullPath rem = true) (a b : List Str)
    (ha : ∀ n ∈ a, Plain n) (hb : ∀ n ∈ b, Plain n) (hca : collapseFullPath w loc = '/' :: slashJoin a) (hcb : collapseFullPath w rem = '/' :: slashJoin b)
    (hx : ∀ x ∈ b, x.head? ≠ some '~' ∧ x[1]? ≠ some ':') (n : Nat) :
    collapseFullPathF w (n + 1) (relativePath w loc rem) (some (collapseFullPath w loc)) = some (collapseFullPath w rem) ∧
    ∃ p x y, a = p ++ x ∧ b = p ++ y ∧ (∀ c d, x.head? = some c → y.head? = some d → c ≠ d) ∧
      relativePath w loc rem = (List.replicate x.length (c!"../")).flatten ++ slashJoin y := by
  obtain ⟨p, x, y, e1, e2, e3, e4⟩ : ∃ p x y, a = p ++ x ∧ b = p ++ y ∧ (∀ c d, x.head? = some c → y.head? = some d → c ≠ d) ∧
      relativePath w loc rem = (List.replicate x.length (c!"../")).flatten ++ slashJoin y := by
    unfold relativePath
    simp only [hl, hr, Bool.not_true, Bool.false_eq_true, if_false, hca, hcb, split_canonical ha, split_canonical hb]
    have hk : ∀ l r : List Str, sameCount (c!"/" :: l) (c!"/" :: r) = sameCount l r + 1 := fun l r => by simp [sameCount]
    rw [hk, if_neg (by omega), List.drop_succ_cons, List.drop_succ_cons]
    have fa : ∀ l : List Str, (∀ n ∈ l, Plain n) → l.filter (· ≠ []) = l := by
      intro l hl
      rw [List.filter_eq_self]
      intro n hn
      simpa using (hl n hn).ne
    have mk : ∀ (x y : List Str), (∀ n ∈ y, Plain n) → joinLoop [] (x.map (fun _ => c!"../") ++ y) = (List.replicate x.length (c!"../")).flatten ++ slashJoin y := by
      intro x y hy
      rw [show x.map (fun _ => c!"../") = List.replicate x.length (c!"../") by simp]
      exact joinLoop_all _ _ hy
    by_cases ha0 : a = []
    · subst ha0
      refine ⟨[], [], b, rfl, rfl, by simp, ?_⟩
      by_cases hb0 : b = []
      · subst hb0; rfl
      · rw [if_pos rfl, if_neg hb0]
        obtain ⟨z, b', rfl⟩ := List.exists_cons_of_ne_nil hb0
        have : sameCount [[]] (z :: b') = 0 := by
          have := (hb z (by simp)).ne
          simp [sameCount, Ne.symm this]
        rw [this, List.drop_zero, List.drop_zero, fa _ hb]
        exact mk [] _ hb
    · rw [if_neg ha0]
      by_cases hb0 : b = []
      · subst hb0
        refine ⟨[], a, [], rfl, rfl, by simp, ?_⟩
        obtain ⟨z, a', rfl⟩ := List.exists_cons_of_ne_nil ha0
        rw [if_pos rfl]
        have : sameCount (z :: a') [[]] = 0 := by
          have := (ha z (by simp)).ne
          simp [sameCount, this]
        rw [this, List.drop_zero, List.drop_zero, fa _ ha]
        exact mk _ [] (by simp)
      · rw [if_neg hb0]
        obtain ⟨p, x, y, h1, h2, h3⟩ := sameCount_spec a b
        refine ⟨p, x, y, h1, h2, ?_, ?_⟩
        · intro c d hc hd e
          subst e
          have : ∀ (p : List Str) (c : Str) (x y : List Str), p.length < sameCount (p ++ c :: x) (p ++ c :: y) := by
            intro p
            induction p with
            | nil => intro c x y; simp [sameCount]
            | cons q p ih => intro c x y; have := ih c x y; simp [sameCount]; exact this
          cases x with
          | nil => cases hc
          | cons c' x =>
            cases y with
            | nil => cases hd
            | cons d' y =>
              cases hc; cases hd
              have := this p c x y
              rw [← h1, ← h2, ← h3] at this
              omega
        · have hxp : ∀ n ∈ x, Plain n := fun n hn => ha n (by rw [h1]; simp [hn])
          have hyp : ∀ n ∈ y, Plain n := fun n hn => hb n (by rw [h2]; simp [hn])
          rw [← h3]
          have d1 : a.drop p.length = x := by rw [h1, List.drop_left]
          have d2 : b.drop p.length = y := by rw [h2, List.drop_left]
          rw [d1, d2, fa _ hxp, fa _ hyp]
          exact mk x y hyp
  refine ⟨?_, p, x, y, e1, e2, e3, e4⟩
  have hxp : ∀ n ∈ x, Plain n := fun n hn => ha n (by rw [e1]; simp [hn])
  have hyp : ∀ n ∈ y, Plain n := fun n hn => hb n (by rw [e2]; simp [hn])
  have hpp : ∀ n ∈ p, Plain n := fun n hn => ha n (by rw [e1]; simp [hn])
  generalize hR : relativePath w loc rem = R at e4
  have hroot : splitRoot R = ([], R) := by
    apply splitRoot_relative
    · intro c hc
      rw [e4] at hc
      cases hu : x.length with
      | zero =>
        rw [hu] at hc
        cases y with
        | nil => simp [slashJoin] at hc
        | cons z y =>
          have hz := hyp z (by simp)
          cases z with
          | nil => exact absurd rfl hz.ne
          | cons q z =>
            simp [slashJoin] at hc
            subst hc
            refine ⟨hz.noSlash q (by simp), ?_⟩
            rintro rfl
            exact (hx ('~' :: z) (by rw [e2]; simp)).1 rfl
      | succ u =>
        rw [hu, List.replicate_succ] at hc
        simp at hc
        subst hc
        exact ⟨rfl, by decide⟩
    · intro hc
      rw [e4] at hc
      cases hu : x.length with
      | zero =>
        rw [hu] at hc
        cases y with
        | nil => simp [slashJoin] at hc
        | cons z y =>
          have hz := hyp z (by simp)
          have hz2 := (hx z (by rw [e2]; simp)).2
          cases z with
          | nil => exact absurd rfl hz.ne
          | cons q z =>
            cases z with
            | nil =>
              cases y with
              | nil => simp [slashJoin] at hc
              | cons v y => simp [slashJoin] at hc
            | cons q' z =>
              simp [slashJoin] at hc hz2
              exact hz2 hc
      | succ u =>
        rw [hu, List.replicate_succ] at hc
        simp at hc
  have hs1 : splitPathF w (n + 1) R = some ([] :: restComponents R) := by
    unfold splitPathF
    rw [hroot]
    simp
  obtain ⟨c1, c2⟩ := canonical_split (root := c!"/") (.inl rfl) ha
  have hs2 : splitPathF w (n + 1) ('/' :: slashJoin a) = some (c!"/" :: a) := by
    unfold splitPathF
    rw [show '/' :: slashJoin a = c!"/" ++ slashJoin a from rfl, c1]
    simp [c2]
  have happ : appendComponents (c!"/" :: a) ([] :: restComponents R) = c!"/" :: b := by
    have e0 : appendComponents (c!"/" :: a) ([] :: restComponents R) = appendComponents (c!"/" :: a) (restComponents R) := by
      rw [appendComponents]; simp
    rw [e0]
    unfold restComponents
    by_cases hR0 : R = []
    · rw [if_pos hR0]
      rw [hR0] at e4
      have hu : x = [] := by
        cases x with
        | nil => rfl
        | cons q x => simp at e4
      have hy : y = [] := by
        cases y with
        | nil => rfl
        | cons z y => rw [hu] at e4; simp [slashJoin] at e4; exact absurd e4.1.symm (Ne.symm (hyp z (by simp)).ne)
      simp [appendComponents, e1, e2, hu, hy]
    · rw [if_neg hR0, e4, splitOn_up, appendComponents_append, e1, append_ups _ _ _ _ rfl]
      cases y with
      | nil => simp [slashJoin, splitOn, appendComponents, e2]
      | cons z y =>
        rw [splitOn_slashJoin (fun v hv => (hyp v hv).noSlash), append_plain_id _ _ _ hyp, e2]
  have happ2 : appendComponents [c!"/"] a = c!"/" :: a := by rw [append_plain_id _ _ _ ha]; rfl
  rw [hca, hcb]
  unfold collapseFullPathF
  simp only [hs1, if_true, hs2, happ2, happ, joinPath_cons]
  congr 1
  unfold checkTranslationPath
  rw [ht]
  split
  · rfl
  · show (('/' :: slashJoin b) ++ ['/']).dropLast = _
    rw [List.dropLast_concat]

example : relativePath {} (c!"/usr/lib/a") (c!"/usr/share/b/c") = c!"../../share/b/c" ∧ relativePath {} (c!"/a/./b/../c") (c!"/a/c") = [] ∧ relativePath {} (c!"/") (c!"/a") = c!"a" ∧
    relativePath {} (c!"/a/b") (c!"/a") = c!"../" := by decide +kernel

/-- The conditions can be met. -/
example : collapseFullPath {} (c!"/usr/lib/./a") = '/' :: slashJoin [c!"usr", c!"lib", c!"a"] ∧ collapseFullPath {} (c!"/usr/share") = '/' :: slashJoin [c!"usr", c!"share"] := by decide +kernel

/-- C190, the full statement, is false: for a name that begins with `~` (the result names a home directory), and for a network path and an ordinary one (which share the root by
the way they are split). -/
theorem C190_refuted :
    (let w : World := { env := fun k => if k = c!"HOME" then some (c!"/home/me") else none }
     relativePath w (c!"/a") (c!"/a/~") = c!"~" ∧ collapseFullPathF w 2 (c!"~") (some (c!"/a")) = some (c!"/home/me")) ∧
    (relativePath {} (c!"//h/a") (c!"/h/a") = c!"../../h/a" ∧ collapseFullPathF {} 2 (c!"../../h/a") (some (c!"//h/a")) = some (c!"//h/a")) := by
  constructor <;> decide +kernel

end Vital.Sys
