/-
  Strings and ordered maps shared by all models.

  `std::string` is modelled as a list of characters.  A character with code below 256 stands for
  one C++ `char` (compared as `unsigned char`, as `std::char_traits<char>::lt` does).
-/
set_option linter.unusedSectionVars false

namespace Vital

abbrev Str := List Char

/-- `c!"abc"` is the list `['a','b','c']`; a literal that reduces in the kernel. -/
macro "c!" s:str : term => do
  let mut r ← `(([] : List Char))
  for c in s.getString.toList.reverse do
    r ← `($(Lean.Syntax.mkCharLit c) :: $r)
  return r

instance {ε α : Type} [DecidableEq ε] [DecidableEq α] : DecidableEq (Except ε α)
  | .ok a, .ok b => if h : a = b then isTrue (by rw [h]) else isFalse (by intro e; cases e; exact h rfl)
  | .error a, .error b => if h : a = b then isTrue (by rw [h]) else isFalse (by intro e; cases e; exact h rfl)
  | .ok _, .error _ => isFalse (by intro e; cases e)
  | .error _, .ok _ => isFalse (by intro e; cases e)

/-- `std::isspace` in the "C" locale. -/
def isSpace (c : Char) : Bool :=
  c == ' ' || c == '\t' || c == '\n' || c == '\x0b' || c == '\x0c' || c == '\r'

-- models: vital/config/config_block.cxx:54-60 and vital/config/config_parser.cxx:65-71 (ltrim)
/-- Erase leading white space. -/
def ltrim (s : Str) : Str := s.dropWhile isSpace

-- models: vital/config/config_block.cxx:63-69 and vital/config/config_parser.cxx:75-81 (rtrim)
/-- Erase trailing white space. -/
def rtrim (s : Str) : Str := (s.reverse.dropWhile isSpace).reverse

-- models: vital/config/config_block.cxx:72-77 and vital/config/config_parser.cxx:85-89 (trim)
/-- `ltrim( rtrim( s ) )`. -/
def trim (s : Str) : Str := ltrim (rtrim s)

-- models: vital/config/config_block.cxx:80-83 (starts_with)
/-- `str.substr( 0, pfx.size()) == pfx`. -/
def startsWith (str pfx : Str) : Bool := str.take pfx.length == pfx

/-- `::tolower` / `::toupper` in the "C" locale. -/
def toLower (c : Char) : Char := if 'A' ≤ c ∧ c ≤ 'Z' then Char.ofNat (c.toNat + 32) else c
def toUpper (c : Char) : Char := if 'a' ≤ c ∧ c ≤ 'z' then Char.ofNat (c.toNat - 32) else c

/-! ### Specification vocabulary for trimming -/

/-- A string has no white space at either end. -/
def Trimmed (s : Str) : Prop :=
  (∀ c, s.head? = some c → isSpace c = false) ∧ (∀ c, s.getLast? = some c → isSpace c = false)

theorem startsWith_iff (s p : Str) : startsWith s p = true ↔ ∃ t, s = p ++ t := by
  unfold startsWith
  constructor
  · intro h
    refine ⟨s.drop p.length, ?_⟩
    have := List.take_append_drop p.length s
    rw [beq_iff_eq.1 h] at this
    exact this.symm
  · rintro ⟨t, rfl⟩
    simp

theorem dropWhile_head_false (p : Char → Bool) (s : Str) :
    ∀ c, (s.dropWhile p).head? = some c → p c = false := by
  induction s with
  | nil => simp
  | cons a s ih =>
    intro c hc
    by_cases h : p a
    · rw [List.dropWhile_cons_of_pos h] at hc; exact ih c hc
    · rw [List.dropWhile_cons_of_neg h] at hc
      simp at hc; subst hc; simpa using h

theorem getLast?_dropWhile_mem {p : Char → Bool} {s : Str} {c : Char}
    (h : (s.dropWhile p).getLast? = some c) : s.getLast? = some c := by
  induction s with
  | nil => simp at h
  | cons a s ih =>
    by_cases hp : p a
    · rw [List.dropWhile_cons_of_pos hp] at h
      have := ih h
      cases s with
      | nil => simp at this
      | cons b s => simpa [List.getLast?_cons_cons] using this
    · rw [List.dropWhile_cons_of_neg hp] at h; exact h

theorem rtrim_last (s : Str) : ∀ c, (rtrim s).getLast? = some c → isSpace c = false := by
  intro c hc
  unfold rtrim at hc
  rw [List.getLast?_reverse] at hc
  exact dropWhile_head_false _ _ c hc

theorem trim_trimmed (s : Str) : Trimmed (trim s) := by
  constructor
  · exact dropWhile_head_false _ _
  · intro c hc
    exact rtrim_last s c (getLast?_dropWhile_mem hc)

theorem ltrim_eq_self {s : Str} (h : ∀ c, s.head? = some c → isSpace c = false) : ltrim s = s := by
  unfold ltrim
  cases s with
  | nil => rfl
  | cons a s => rw [List.dropWhile_cons_of_neg]; simpa using h a rfl

theorem rtrim_eq_self {s : Str} (h : ∀ c, s.getLast? = some c → isSpace c = false) : rtrim s = s := by
  unfold rtrim
  have : (s.reverse).dropWhile isSpace = s.reverse := by
    apply ltrim_eq_self
    intro c hc
    exact h c (by simpa [List.head?_reverse] using hc)
  rw [this]; simp

theorem trim_eq_self {s : Str} (h : Trimmed s) : trim s = s := by
  unfold trim
  rw [rtrim_eq_self h.2, ltrim_eq_self h.1]

theorem trim_trim (s : Str) : trim (trim s) = trim s := trim_eq_self (trim_trimmed s)

theorem trimmed_iff_trim (s : Str) : Trimmed s ↔ trim s = s :=
  ⟨trim_eq_self, fun h => h ▸ trim_trimmed s⟩

/-- Characterisation of `trim`: the string is blanks, the trimmed string, blanks. -/
theorem trim_spec (s : Str) : ∃ l r : Str, (∀ c ∈ l, isSpace c = true) ∧ (∀ c ∈ r, isSpace c = true) ∧
    s = l ++ trim s ++ r := by
  have h1 : ∀ t : Str, ∃ l, (∀ c ∈ l, isSpace c = true) ∧ t = l ++ t.dropWhile isSpace := by
    intro t
    refine ⟨t.takeWhile isSpace, ?_, ?_⟩
    · intro c hc
      induction t with
      | nil => simp at hc
      | cons a t ih =>
        by_cases h : isSpace a
        · rw [List.takeWhile_cons_of_pos h] at hc
          rcases List.mem_cons.1 hc with rfl | hc
          · exact h
          · exact ih hc
        · rw [List.takeWhile_cons_of_neg h] at hc; simp at hc
    · exact (List.takeWhile_append_dropWhile).symm
  obtain ⟨r, hr, hr'⟩ := h1 s.reverse
  obtain ⟨l, hl, hl'⟩ := h1 (rtrim s)
  refine ⟨l, r.reverse, hl, by simpa using hr, ?_⟩
  have : s = rtrim s ++ r.reverse := by
    unfold rtrim
    rw [← List.reverse_append, ← hr']; simp
  show s = l ++ ltrim (rtrim s) ++ r.reverse
  have h2 : l ++ ltrim (rtrim s) = rtrim s := hl'.symm
  rw [h2]; exact this

/-! ### Key orders and ordered maps (`std::map`) -/

/-- A strict total order on keys given by a boolean comparison (the `Compare` of `std::map`). -/
class KeyOrd (K : Type) where
  lt : K → K → Bool
  irrefl : ∀ a, lt a a = false
  trans : ∀ a b c, lt a b = true → lt b c = true → lt a c = true
  tri : ∀ a b, lt a b = false → lt b a = false → a = b

/-- Byte-wise lexicographic order of `std::string::compare`. -/
def strLt : Str → Str → Bool
  | _, [] => false
  | [], _ :: _ => true
  | a :: as, b :: bs => decide (a.toNat < b.toNat) || (a == b && strLt as bs)

theorem strLt_irrefl : ∀ a, strLt a a = false
  | [] => rfl
  | a :: as => by simp [strLt, strLt_irrefl as]

theorem strLt_trans : ∀ a b c, strLt a b = true → strLt b c = true → strLt a c = true
  | _, [], _, h, _ => by simp [strLt] at h
  | _, _ :: _, [], _, h => by simp [strLt] at h
  | [], _ :: _, _ :: _, _, _ => rfl
  | a :: as, b :: bs, c :: cs, h1, h2 => by
    simp only [strLt, Bool.or_eq_true, decide_eq_true_eq, Bool.and_eq_true, beq_iff_eq] at *
    rcases h1 with h1 | ⟨rfl, h1⟩ <;> rcases h2 with h2 | ⟨rfl, h2⟩
    · left; omega
    · left; omega
    · left; omega
    · right; exact ⟨rfl, strLt_trans as bs cs h1 h2⟩

theorem strLt_tri : ∀ a b, strLt a b = false → strLt b a = false → a = b
  | [], [], _, _ => rfl
  | [], _ :: _, h, _ => by simp [strLt] at h
  | _ :: _, [], _, h => by simp [strLt] at h
  | a :: as, b :: bs, h1, h2 => by
    simp only [strLt, Bool.or_eq_false_iff, decide_eq_false_iff_not, Bool.and_eq_false_imp,
      beq_iff_eq] at *
    have hab : a = b := by
      apply Char.ext; apply UInt32.toNat_inj.1
      have := h1.1; have := h2.1
      simp only [Char.toNat] at *; omega
    subst hab
    rw [strLt_tri as bs (h1.2 rfl) (h2.2 rfl)]

instance : KeyOrd Str := ⟨strLt, strLt_irrefl, strLt_trans, strLt_tri⟩

instance : KeyOrd Int where
  lt a b := decide (a < b)
  irrefl := by intro a; simp
  trans := by intro a b c; simp only [decide_eq_true_eq]; omega
  tri := by intro a b; simp only [decide_eq_false_iff_not]; omega

instance : KeyOrd Nat where
  lt a b := decide (a < b)
  irrefl := by intro a; simp
  trans := by intro a b c; simp only [decide_eq_true_eq]; omega
  tri := by intro a b; simp only [decide_eq_false_iff_not]; omega

/-- `std::map<K,V>`: association list, kept sorted by `insert`. -/
abbrev OMap (K V : Type) := List (K × V)

namespace OMap
variable {K V : Type} [KeyOrd K] [DecidableEq K]

/-- `m.find(k)`. -/
def find? : OMap K V → K → Option V
  | [], _ => none
  | (k', v) :: m, k => if k' = k then some v else find? m k

/-- `m.count(k) != 0`. -/
def contains (m : OMap K V) (k : K) : Bool := (find? m k).isSome

/-- `m[k] = v`. -/
def insert : OMap K V → K → V → OMap K V
  | [], k, v => [(k, v)]
  | (k', v') :: m, k, v =>
    if KeyOrd.lt k k' then (k, v) :: (k', v') :: m
    else if KeyOrd.lt k' k then (k', v') :: insert m k v
    else (k, v) :: m

/-- `m.erase(k)`. -/
def erase (m : OMap K V) (k : K) : OMap K V := m.filter (fun e => decide (e.1 ≠ k))

/-- Keys in iteration order. -/
def keys (m : OMap K V) : List K := m.map (·.1)

/-- The `std::map` representation invariant: keys strictly increasing. -/
def Sorted (m : OMap K V) : Prop := m.Pairwise (fun a b => KeyOrd.lt a.1 b.1 = true)

theorem lt_ne {a b : K} (h : KeyOrd.lt a b = true) : a ≠ b := by
  rintro rfl; simp [KeyOrd.irrefl] at h

theorem lt_asymm {a b : K} (h : KeyOrd.lt a b = true) : KeyOrd.lt b a = false := by
  cases hb : KeyOrd.lt b a
  · rfl
  · have := KeyOrd.trans _ _ _ h hb; simp [KeyOrd.irrefl] at this

theorem find?_insert_self (m : OMap K V) (k : K) (v : V) : find? (insert m k v) k = some v := by
  induction m with
  | nil => simp [insert, find?]
  | cons e m ih =>
    obtain ⟨k', v'⟩ := e
    unfold insert
    split
    · simp [find?]
    · split
      · rename_i h1 h2
        simp [find?, lt_ne h2, ih]
      · simp [find?]

theorem find?_insert_ne (m : OMap K V) {k k' : K} (v : V) (h : k' ≠ k) :
    find? (insert m k v) k' = find? m k' := by
  induction m with
  | nil => simp [insert, find?, Ne.symm h]
  | cons e m ih =>
    obtain ⟨k0, v0⟩ := e
    unfold insert
    split
    · simp [find?, Ne.symm h]
    · split
      · simp [find?, ih]
      · rename_i h1 h2
        have : k = k0 := KeyOrd.tri _ _ (by simpa using h1) (by simpa using h2)
        subst this
        simp [find?, Ne.symm h]

theorem find?_insert (m : OMap K V) (k k' : K) (v : V) :
    find? (insert m k v) k' = if k' = k then some v else find? m k' := by
  split
  · rename_i h; subst h; exact find?_insert_self _ _ _
  · rename_i h; exact find?_insert_ne _ _ h

theorem find?_erase (m : OMap K V) (k k' : K) :
    find? (erase m k) k' = if k' = k then none else find? m k' := by
  induction m with
  | nil => simp [erase, find?]
  | cons e m ih =>
    obtain ⟨k0, v0⟩ := e
    unfold erase at *
    by_cases h : k0 = k
    · subst h
      simp only [List.filter_cons, ne_eq, not_true_eq_false, decide_false, Bool.false_eq_true,
        ↓reduceIte] at *
      rw [ih]
      split
      · rfl
      · rename_i h; simp [find?, Ne.symm h]
    · simp only [List.filter_cons, ne_eq, h, not_false_eq_true, decide_true, ↓reduceIte]
      simp only [find?]
      by_cases h' : k0 = k'
      · subst h'; simp [h]
      · simp only [h', ↓reduceIte]; exact ih

theorem mem_keys_iff (m : OMap K V) (k : K) : k ∈ keys m ↔ (find? m k).isSome := by
  induction m with
  | nil => simp [keys, find?]
  | cons e m ih =>
    obtain ⟨k0, v0⟩ := e
    simp only [keys, List.map_cons, List.mem_cons, find?] at *
    by_cases h : k0 = k
    · simp [h]
    · simp [h, Ne.symm h, ih]

theorem contains_iff (m : OMap K V) (k : K) : contains m k = true ↔ k ∈ keys m := by
  rw [mem_keys_iff]; rfl

theorem mem_insert_key {m : OMap K V} {k : K} {v : V} {e : K × V} (h : e ∈ insert m k v) :
    e.1 = k ∨ e ∈ m := by
  induction m with
  | nil => simp [insert] at h; left; rw [h]
  | cons e0 m ih =>
    obtain ⟨k', v'⟩ := e0
    unfold insert at h
    split at h
    · rcases List.mem_cons.1 h with rfl | h
      · left; rfl
      · right; exact h
    · split at h
      · rcases List.mem_cons.1 h with rfl | h
        · right; simp
        · rcases ih h with h | h
          · left; exact h
          · right; simp [h]
      · rcases List.mem_cons.1 h with rfl | h
        · left; rfl
        · right; simp [h]

theorem sorted_insert {m : OMap K V} (hm : Sorted m) (k : K) (v : V) : Sorted (insert m k v) := by
  induction m with
  | nil => simp [insert, Sorted]
  | cons e m ih =>
    obtain ⟨k', v'⟩ := e
    have hm' := List.pairwise_cons.1 hm
    unfold insert
    split
    · rename_i h
      refine List.pairwise_cons.2 ⟨?_, hm⟩
      intro e he
      rcases List.mem_cons.1 he with rfl | he
      · exact h
      · exact KeyOrd.trans _ _ _ h (hm'.1 e he)
    · split
      · rename_i h1 h2
        refine List.pairwise_cons.2 ⟨?_, ih hm'.2⟩
        intro e he
        rcases mem_insert_key he with rfl | he
        · exact h2
        · exact hm'.1 e he
      · rename_i h1 h2
        have : k = k' := KeyOrd.tri _ _ (by simpa using h1) (by simpa using h2)
        subst this
        exact List.pairwise_cons.2 ⟨hm'.1, hm'.2⟩

theorem sorted_erase {m : OMap K V} (hm : Sorted m) (k : K) : Sorted (erase m k) :=
  List.Pairwise.filter _ hm

theorem sorted_nil : Sorted ([] : OMap K V) := List.Pairwise.nil

theorem sorted_keys {m : OMap K V} (hm : Sorted m) :
    (keys m).Pairwise (fun a b => KeyOrd.lt a b = true) := by
  unfold keys; exact List.pairwise_map.2 hm

theorem keys_nodup {m : OMap K V} (hm : Sorted m) : (keys m).Nodup :=
  (sorted_keys hm).imp (fun h => lt_ne h)

theorem find?_mem {m : OMap K V} {k : K} {v : V} (h : find? m k = some v) : (k, v) ∈ m := by
  induction m with
  | nil => simp [find?] at h
  | cons e m ih =>
    obtain ⟨k0, v0⟩ := e
    simp only [find?] at h
    split at h
    · rename_i hk; subst hk; cases h; simp
    · exact List.mem_cons_of_mem _ (ih h)

theorem mem_find? {m : OMap K V} (hm : Sorted m) {k : K} {v : V} (h : (k, v) ∈ m) :
    find? m k = some v := by
  induction m with
  | nil => simp at h
  | cons e m ih =>
    obtain ⟨k0, v0⟩ := e
    have hm' := List.pairwise_cons.1 hm
    rcases List.mem_cons.1 h with h | h
    · cases h; simp [find?]
    · have := lt_ne (hm'.1 _ h)
      simp [find?, this, ih hm'.2 h]

/-- Two sorted maps with the same lookups are equal: `std::map` has no hidden state. -/
theorem ext_of_sorted {m m' : OMap K V} (hm : Sorted m) (hm' : Sorted m')
    (h : ∀ k, find? m k = find? m' k) : m = m' := by
  induction m generalizing m' with
  | nil =>
    cases m' with
    | nil => rfl
    | cons e m' => have := h e.1; simp [find?] at this
  | cons e m ih =>
    obtain ⟨k, v⟩ := e
    cases m' with
    | nil => have := h k; simp [find?] at this
    | cons e' m' =>
      obtain ⟨k', v'⟩ := e'
      have hs := List.pairwise_cons.1 hm
      have hs' := List.pairwise_cons.1 hm'
      have hk : k = k' := by
        apply KeyOrd.tri
        · cases hlt : KeyOrd.lt k k'
          · rfl
          · exfalso
            have h1 := h k
            have hne : k' ≠ k := (lt_ne hlt).symm
            simp only [find?, hne, ↓reduceIte] at h1
            have := hs'.1 _ (find?_mem h1.symm)
            have := KeyOrd.trans _ _ _ hlt this
            simp [KeyOrd.irrefl] at this
        · cases hlt : KeyOrd.lt k' k
          · rfl
          · exfalso
            have h1 := h k'
            have hne : k ≠ k' := (lt_ne hlt).symm
            simp only [find?, hne, ↓reduceIte] at h1
            have := hs.1 _ (find?_mem h1)
            have := KeyOrd.trans _ _ _ hlt this
            simp [KeyOrd.irrefl] at this
      subst hk
      have hv : v = v' := by have := h k; simpa [find?] using this
      subst hv
      congr 1
      apply ih hs.2 hs'.2
      intro q
      by_cases hq : k = q
      · subst hq
        have e1 : find? m k = none := by
          cases hf : find? m k with
          | none => rfl
          | some w => exact absurd rfl (lt_ne (hs.1 (k, w) (find?_mem hf)))
        have e2 : find? m' k = none := by
          cases hf : find? m' k with
          | none => rfl
          | some w => exact absurd rfl (lt_ne (hs'.1 (k, w) (find?_mem hf)))
        rw [e1, e2]
      · have := h q
        simpa [find?, hq] using this

end OMap
end Vital
