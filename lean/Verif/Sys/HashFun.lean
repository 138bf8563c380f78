import Verif.Sys.HashMap
import Verif.CApi.Utils
import Mathlib.Algebra.BigOperators.Group.Finset.Basic
import Mathlib.Algebra.BigOperators.Ring.Finset
import Mathlib.Tactic.Ring
import Mathlib.Tactic.LinearCombination
/-
  The hash functions of vital/kwiversys/hash_fun.hxx.in; properties C272 (their values) and C273 (char* keys).

  `char` is signed and has 8 bits, `unsigned long` and `size_t` have 64 bits (x86-64, as in the rest of the model).  A character of the model is a byte.
-/
namespace Vital.Hash.Fun
open Vital Vital.CApi

/-- The value of a `char`. -/
def charVal (c : Char) : Int := if c.toNat < 128 then (c.toNat : Int) else (c.toNat : Int) - 256

/-- The conversion of an integer to size_t. -/
def toSize (x : Int) : Nat := (x % 18446744073709551616).toNat

-- models: vital/kwiversys/hash_fun.hxx.in:49-56 (_stl_hash_string); the list goes on after the NUL with whatever is in the memory
def loop (h : Nat) : Str → Nat
  | [] => h
  | c :: s => if c = nul then h else loop (toSize (5 * (h : Int) + charVal c)) s

-- models: vital/kwiversys/hash_fun.hxx.in:58-66 (hash<char*>, hash<const char*>): `s` is the memory from the pointer on, up to a NUL at least
def hashC (s : Str) : Nat := loop 0 s

-- models: vital/kwiversys/hash_fun.hxx.in:68-78 (hash<std::string>): c_str() is the characters and a NUL
def hashString (s : Str) : Nat := hashC (s ++ [nul])

-- models: vital/kwiversys/hash_fun.hxx.in:80-88, 95-140 (hash of char, unsigned char, short, int, long, long long and their unsigned types)
def hashInt (x : Int) : Nat := toSize x

-- models: vital/kwiversys/hash_fun.hxx.in:90-93 (hash<signed char>): the argument is an unsigned char
def hashSChar (x : Int) : Nat := toSize (x % 256)

/-! ### Specification -/

/-- The number with the digits `l` in base 5, the first digit being the most significant. -/
def base5 (l : List Int) : Int := ∑ i ∈ Finset.range l.length, (l[i]?).getD 0 * 5 ^ (l.length - 1 - i)

/-- The signed value of a byte: the number between -128 and 127 that has the byte's bits. -/
def ByteVal (c : Char) (v : Int) : Prop := -128 ≤ v ∧ v ≤ 127 ∧ ∃ k : Int, v = c.toNat + 256 * k

theorem charVal_byte (c : Char) (h : c.toNat < 256) : ByteVal c (charVal c) := by
  unfold ByteVal charVal
  split
  · exact ⟨by omega, by omega, 0, by omega⟩
  · exact ⟨by omega, by omega, -1, by omega⟩

theorem byteVal_unique {c : Char} {v w : Int} (h : ByteVal c v) (h' : ByteVal c w) : v = w := by
  obtain ⟨a, b, k, e⟩ := h
  obtain ⟨a', b', k', e'⟩ := h'
  omega

theorem base5_snoc (l : List Int) (x : Int) : base5 (l ++ [x]) = 5 * base5 l + x := by
  unfold base5
  rw [List.length_append, List.length_singleton, Finset.sum_range_succ]
  have h1 : (l ++ [x])[l.length]? = some x := by simp
  have h2 : l.length + 1 - 1 - l.length = 0 := by omega
  rw [h1, h2]
  have h3 : ∀ i ∈ Finset.range l.length, ((l ++ [x])[i]?).getD 0 * 5 ^ (l.length + 1 - 1 - i) = 5 * ((l[i]?).getD 0 * 5 ^ (l.length - 1 - i)) := by
    intro i hi
    have hi' : i < l.length := Finset.mem_range.1 hi
    rw [List.getElem?_append_left hi']
    have : l.length + 1 - 1 - i = (l.length - 1 - i) + 1 := by omega
    rw [this, pow_succ]
    ring
  rw [Finset.sum_congr rfl h3, ← Finset.mul_sum]
  simp

theorem toSize_cast (x : Int) : ((toSize x : Nat) : Int) = x % 18446744073709551616 := by
  unfold toSize
  exact Int.toNat_of_nonneg (Int.emod_nonneg _ (by decide))

theorem toSize_congr {x y : Int} (h : x % 18446744073709551616 = y % 18446744073709551616) : toSize x = toSize y := by unfold toSize; rw [h]

theorem loop_eq : ∀ (s : Str) (p : List Int) (h : Nat), (h : Int) = base5 p % 18446744073709551616 → nul ∉ s → ∀ t : Str,
    loop h (s ++ nul :: t) = toSize (base5 (p ++ s.map charVal)) := by
  intro s
  induction s with
  | nil =>
    intro p h e _ t
    have : ((loop h (nul :: t) : Nat) : Int) = (toSize (base5 p) : Nat) := by rw [toSize_cast, ← e]; simp [loop]
    simpa using Int.ofNat.inj this
  | cons c s ih =>
    intro p h e hn t
    have hc : c ≠ nul := fun x => hn (by simp [x])
    rw [List.cons_append, loop, if_neg hc, ih (p ++ [charVal c]) _ ?_ (fun x => hn (by simp [x]))]
    · simp
    · rw [toSize_cast, base5_snoc, e]
      omega

theorem cstr_split (s : Str) : ∃ t, s ++ [nul] = cstr s ++ nul :: t := by
  unfold cstr
  induction s with
  | nil => exact ⟨[], rfl⟩
  | cons a s ih =>
    by_cases h : a = nul
    · subst h; exact ⟨s ++ [nul], by simp [List.takeWhile]⟩
    · obtain ⟨t, ht⟩ := ih
      refine ⟨t, ?_⟩
      have : (a != nul) = true := by simpa using h
      rw [List.takeWhile_cons, this]
      simp only [if_true, List.cons_append, ht]

theorem cstr_no_nul (s : Str) : nul ∉ cstr s := by
  unfold cstr
  induction s with
  | nil => simp
  | cons a s ih =>
    rw [List.takeWhile_cons]
    by_cases h : a = nul
    · simp [h]
    · have hb : (a != nul) = true := by simpa using h
      rw [hb]
      simp only [if_true, List.mem_cons, not_or]
      exact ⟨fun e => h e.symm, ih⟩

/-- C272: the hash of a string is the number that its characters up to the first NUL are in base 5, each with its signed value, modulo 2^64; it is the same
    for a std::string and for a char* to the same characters, whatever comes after the NUL. -/
theorem C272_string (s : Str) (d : List Int) (hd : d.length = (cstr s).length) (hb : ∀ c ∈ s, c.toNat < 256)
    (hv : ∀ (i : Nat) (c : Char) (v : Int), (cstr s)[i]? = some c → d[i]? = some v → ByteVal c v) (t : Str) :
    (hashString s : Int) = base5 d % 2 ^ 64 ∧ hashString s < 2 ^ 64 ∧ hashC (cstr s ++ nul :: t) = hashString s := by
  have hm : d = (cstr s).map charVal := by
    apply List.ext_getElem?
    intro i
    rw [List.getElem?_map]
    cases hc : (cstr s)[i]? with
    | none =>
      have : (cstr s).length ≤ i := by simpa using hc
      simp [hd, this]
    | some c =>
      have hi : i < (cstr s).length := (List.getElem?_eq_some_iff.1 hc).1
      have hdv : d[i]? = some d[i] := List.getElem?_eq_getElem (by omega)
      rw [hdv]
      have hmem : c ∈ cstr s := List.mem_of_getElem? hc
      have hlt : c.toNat < 256 := hb c (by unfold cstr at hmem; exact (List.takeWhile_sublist _).subset hmem)
      simp only [Option.map_some, Option.some.injEq]
      exact byteVal_unique (hv i c _ hc hdv) (charVal_byte c hlt)
  have e0 : ∀ t, hashC (cstr s ++ nul :: t) = toSize (base5 d) := by
    intro t
    unfold hashC
    rw [loop_eq (cstr s) [] 0 (by simp [base5]) (cstr_no_nul s) t, hm]
    simp
  obtain ⟨t', ht'⟩ := cstr_split s
  have e1 : hashString s = toSize (base5 d) := by unfold hashString; rw [ht', e0]
  refine ⟨?_, ?_, ?_⟩
  · rw [e1, toSize_cast]; norm_num
  · have := toSize_cast (base5 d)
    rw [e1]; omega
  · rw [e0, e1]

/-- C272: strings that agree up to the first NUL have the same hash. -/
theorem C272_after_nul (s t u : Str) : hashString (s ++ nul :: t) = hashString (s ++ nul :: u) := by
  have h : ∀ (x : Str) (t : Str) (k : Nat), loop k (x ++ nul :: t) = loop k (cstr (x ++ [nul]) ++ [nul]) := by
    intro x
    induction x with
    | nil => intro t k; simp [loop, cstr, List.takeWhile]
    | cons a x ih =>
      intro t k
      by_cases ha : a = nul
      · subst ha; simp [loop, cstr, List.takeWhile]
      · have hb : (a != nul) = true := by simpa using ha
        have : cstr (a :: x ++ [nul]) = a :: cstr (x ++ [nul]) := by unfold cstr; rw [List.cons_append, List.takeWhile_cons, hb]; rfl
        rw [this, List.cons_append, List.cons_append, loop, loop, if_neg ha, if_neg ha]
        exact ih t _
  unfold hashString hashC
  rw [List.append_assoc, List.append_assoc, List.cons_append, List.cons_append, h, h s (u ++ [nul])]

theorem loop_append : ∀ (p : Str) (s : Str) (h : Nat), nul ∉ p → ∃ k, ∀ s, loop h (p ++ s) = loop k s := by
  intro p _
  induction p with
  | nil => intro h _; exact ⟨h, fun _ => rfl⟩
  | cons a p ih =>
    intro h hn
    obtain ⟨k, hk⟩ := ih (toSize (5 * (h : Int) + charVal a)) (fun x => hn (by simp [x]))
    refine ⟨k, fun s => ?_⟩
    rw [List.cons_append, loop, if_neg (fun x => hn (by simp [x])), hk]

/-- C272: the hash is weak: one up in a character and five down in the next one is not seen, anywhere in a string. -/
theorem C272_collisions (p s : Str) (a b a' b' : Char) (hp : nul ∉ p) (ha : a ≠ nul) (hb : b ≠ nul) (ha' : a' ≠ nul) (hb' : b' ≠ nul)
    (h1 : a'.toNat = a.toNat + 1) (h2 : b'.toNat + 5 = b.toNat) (h3 : a'.toNat < 128) (h4 : b.toNat < 128) :
    hashString (p ++ a :: b :: s) = hashString (p ++ a' :: b' :: s) := by
  unfold hashString hashC
  obtain ⟨k, hk⟩ := loop_append p [] 0 hp
  rw [List.append_assoc, List.append_assoc, hk, hk]
  simp only [List.cons_append]
  rw [loop, loop, loop, loop, if_neg ha, if_neg hb, if_neg ha', if_neg hb']
  congr 1
  apply toSize_congr
  rw [toSize_cast, toSize_cast]
  unfold charVal
  rw [if_pos (by omega), if_pos h4, if_pos h3, if_pos (by omega)]
  omega

/-- C272: different integers of one type have different hashes. -/
theorem C272_integers (x y : Int) :
    ((-2 ^ 63 ≤ x ∧ x < 2 ^ 63 ∧ -2 ^ 63 ≤ y ∧ y < 2 ^ 63) ∨ (0 ≤ x ∧ x < 2 ^ 64 ∧ 0 ≤ y ∧ y < 2 ^ 64) → (hashInt x = hashInt y ↔ x = y)) ∧
    (-128 ≤ x ∧ x < 128 ∧ -128 ≤ y ∧ y < 128 → (hashSChar x = hashSChar y ↔ x = y)) ∧
    (0 ≤ x → x < 2 ^ 64 → (hashInt x : Int) = x) := by
  unfold hashInt hashSChar toSize
  refine ⟨fun h => ?_, fun h => ?_, fun h1 h2 => ?_⟩ <;> omega

/-- C272: strings as keys, NULs in them included: the map is the finite map from whole strings, although strings that agree up to a NUL share a bucket. -/
theorem C272_map {V : Type} (fresh : List Nat → Nat) (hfr : ∀ l, fresh l ∉ l) (d : V) (n : Nat) (ops : List (Op Str V)) :
    ∃ t os f, Hash.run hashString fresh d (init n) ops = some (t, os) ∧ Follows d (fun _ => none) ops f os ∧ (∀ k, (t.find hashString k).map Node.val = f k) ∧
      ∀ (s u w : Str), t.bkt hashString (s ++ nul :: u) = t.bkt hashString (s ++ nul :: w) := by
  obtain ⟨t, os, f, h1, h2, h3⟩ := C157_map hashString fresh hfr d n ops
  exact ⟨t, os, f, h1, h2, h3, fun s u w => by unfold Table.bkt; rw [C272_after_nul s u w]⟩

example : hashString (c!"af") = hashString (c!"ba") := by decide +kernel
example : hashString (c!"vital") = 90368 := by decide +kernel
example : ByteVal 'v' 118 := ⟨by decide, by decide, 0, by decide⟩
example : hashString [Char.ofNat 255] = 18446744073709551615 := by decide +kernel

/-! ### C273: char* keys -/

/-- The hash of a pointer while the memory is `mem` (characters from each address on). -/
-- models: vital/kwiversys/hash_fun.hxx.in:58-66; std::equal_to< const char* > compares addresses
def hashPtr (mem : Nat → Str) (p : Nat) : Nat := hashC (mem p)

/-- Full property C273: a hash_map with char* keys is a finite map of C strings: a pointer to the same characters finds what was inserted, however the
    memory changes meanwhile. -/
def C273_statement : Prop := ∀ (fresh : List Nat → Nat), (∀ l, fresh l ∉ l) → ∀ (n : Nat) (mem mem' : Nat → Str) (p q v : Nat),
  mem' q = mem p → ∀ t os, Hash.run (hashPtr mem) fresh 0 (init n) [.insert p v] = some (t, os) → (t.find (hashPtr mem') q).map Node.val = some v

/-- What holds: as long as the characters behind the keys stay, the map is a finite map of addresses.
    Missing: another pointer to the same characters is not found; and the memory must stay. -/
theorem C273_pointers_partial {V : Type} (fresh : List Nat → Nat) (hfr : ∀ l, fresh l ∉ l) (d : V) (n : Nat) (mem mem' : Nat → Str) (ops : List (Op Nat V)) :
    ∃ t os f, Hash.run (hashPtr mem) fresh d (init n) ops = some (t, os) ∧ Follows d (fun _ => none) ops f os ∧
      ∀ k, mem' k = mem k → (t.find (hashPtr mem') k).map Node.val = f k := by
  obtain ⟨t, os, f, h1, h2, h3⟩ := C157_map (hashPtr mem) fresh hfr d n ops
  refine ⟨t, os, f, h1, h2, fun k hk => ?_⟩
  rw [← h3 k]
  unfold Table.find Table.bkt hashPtr
  rw [hk]

/-- A pointer that was not inserted is never found, whatever it points to. -/
theorem C273_other_pointer (fresh : List Nat → Nat) (hfr : ∀ l, fresh l ∉ l) (n : Nat) (mem mem' : Nat → Str) (p q v : Nat) (hpq : p ≠ q) {t : Table Nat Nat}
    {os : List (Out Nat Nat)} (h : Hash.run (hashPtr mem) fresh 0 (init n) [.insert p v] = some (t, os)) : t.find (hashPtr mem') q = none := by
  obtain ⟨f, hf⟩ := reached hfr h
  cases hc : t.find (hashPtr mem') q with
  | none => rfl
  | some x =>
    exfalso
    have hx : x.key = q := by
      have := List.find?_some hc
      simpa using this
    have hmem : x ∈ t.nodes := by
      have h1 := List.mem_of_find?_eq_some hc
      unfold Table.nodes
      unfold Table.chain at h1
      cases hb : t.buckets[t.bkt (hashPtr mem') q]? with
      | none => rw [hb] at h1; simp at h1
      | some c => rw [hb] at h1; exact List.mem_flatten.2 ⟨c, List.mem_of_getElem? hb, h1⟩
    have h2 : f q = some x.val := (hf.same q x.val).1 (by rw [← hx]; exact ⟨x, hmem, rfl, rfl⟩)
    obtain ⟨t', os', g, e1, e2, e3⟩ := C157_map (hashPtr mem) fresh hfr 0 n [.insert p v]
    rw [h] at e1
    cases e1
    have h4 := e3 q
    rw [hf.find q, h2] at h4
    obtain ⟨o, os2, -, -, h5⟩ := e2
    have h6 : g = _ := h5.1
    rw [h6] at h4
    simp [after1, upd, hpq.symm] at h4

/-- C273 is false of the code. -/
theorem C273_refuted : ¬ C273_statement := by
  intro h
  have := h freshNat freshNat_spec 0 (fun _ => c!"a" ++ [nul]) (fun _ => c!"a" ++ [nul]) 1 2 7 rfl
  have e : ∃ t os, Hash.run (hashPtr (fun _ => c!"a" ++ [nul])) freshNat 0 (init 0 : Table Nat Nat) [.insert 1 7] = some (t, os) ∧
      (t.find (hashPtr (fun _ => c!"a" ++ [nul])) 2).map Node.val = none := by
    refine ⟨_, _, rfl, ?_⟩
    decide +kernel
  obtain ⟨t, os, e1, e2⟩ := e
  rw [this t os e1] at e2
  cases e2

end Vital.Hash.Fun
