import Mathlib.Data.List.Perm.Basic
import Mathlib.Data.List.Nodup
import Mathlib.Data.List.Flatten
import Mathlib.Data.List.Permutation
/-
  Model of vital/kwiversys/hashtable.hxx.in, hash_map.hxx.in and hash_set.hxx.in; properties C157 (hash_map and hash_set are finite maps and sets),
  C158 (elements stay where they are), C159 (erasing by a key), C160 (equality), C161 (hash_multimap, hash_multiset).

  A bucket (a chain of nodes linked by `_M_next`) is a list of nodes; a node has an address, by which pointers, iterators and references refer to it.
  Keys are compared by `==` (std::equal_to), the hash function is any function. A set has elements with a value of type Unit. Memory allocation succeeds,
  and hashing and copying do not throw.
-/
namespace Vital.Hash

variable {K V : Type} [DecidableEq K]

-- models: vital/kwiversys/hashtable.hxx.in:79-87 (_Hashtable_node)
structure Node (K V : Type) where
  at_ : Nat
  key : K
  val : V
  deriving DecidableEq

-- models: vital/kwiversys/hashtable.hxx.in:250-256 (_M_buckets, _M_num_elements)
structure Table (K V : Type) where
  buckets : List (List (Node K V))
  num : Nat
  deriving DecidableEq

-- models: vital/kwiversys/hashtable.hxx.in:179-188 (_stl_prime_list)
def primes : List Nat :=
  [5, 11, 23, 53, 97, 193, 389, 769, 1543, 3079, 6151, 12289, 24593, 49157, 98317, 196613, 393241, 786433, 1572869, 3145739, 6291469, 12582917, 25165843,
   50331653, 100663319, 201326611, 402653189, 805306457, 1610612741, 3221225473, 4294967291]

-- models: vital/kwiversys/hashtable.hxx.in:192-198 (_stl_next_prime: the first one that is not smaller, or the last)
def nextPrime (n : Nat) : Nat := (primes.find? fun p => n ≤ p).getD 4294967291

-- models: vital/kwiversys/hashtable.hxx.in:504-510 (_M_initialize_buckets)
def init (n : Nat) : Table K V := ⟨List.replicate (nextPrime n) [], 0⟩

/-- The chain at an index (`_M_buckets[__n]`, always inside the vector). -/
def Table.chain (t : Table K V) (n : Nat) : List (Node K V) := t.buckets[n]?.getD []

-- models: vital/kwiversys/hashtable.hxx.in:512-530 (_M_bkt_num, _M_bkt_num_key)
def Table.bkt (hash : K → Nat) (t : Table K V) (k : K) : Nat := hash k % t.buckets.length

/-- One node is taken to the front of its new chain. -/
-- models: vital/kwiversys/hashtable.hxx.in:894-899
def put (hash : K → Nat) (n : Nat) (tmp : List (List (Node K V))) (x : Node K V) : List (List (Node K V)) := tmp.modify (hash x.key % n) (x :: ·)

-- models: vital/kwiversys/hashtable.hxx.in:876-917 (resize)
def Table.resize (hash : K → Nat) (t : Table K V) (hint : Nat) : Table K V :=
  if t.buckets.length < hint then
    if t.buckets.length < nextPrime hint then
      { t with buckets := t.buckets.foldl (fun tmp c => c.foldl (put hash (nextPrime hint)) tmp) (List.replicate (nextPrime hint) []) }
    else t
  else t

-- models: vital/kwiversys/hashtable.hxx.in:448-470 (find)
def Table.find (hash : K → Nat) (t : Table K V) (k : K) : Option (Node K V) := (t.chain (t.bkt hash k)).find? fun x => x.key = k

-- models: vital/kwiversys/hashtable.hxx.in:472-481 (count)
def Table.count (hash : K → Nat) (t : Table K V) (k : K) : Nat := ((t.chain (t.bkt hash k)).filter fun x => x.key = k).length

/-- The table, the element, and whether it is new; `a` is the address a new node gets. -/
-- models: vital/kwiversys/hashtable.hxx.in:663-681 (insert_unique_noresize)
def Table.insertNoresize (hash : K → Nat) (t : Table K V) (a : Nat) (k : K) (v : V) : Table K V × Node K V × Bool :=
  match (t.chain (t.bkt hash k)).find? fun x => x.key = k with
  | some x => (t, x, false)
  | none => (⟨t.buckets.set (t.bkt hash k) (⟨a, k, v⟩ :: t.chain (t.bkt hash k)), t.num + 1⟩, ⟨a, k, v⟩, true)

-- models: vital/kwiversys/hashtable.hxx.in:380-384 (insert_unique)
def Table.insert (hash : K → Nat) (t : Table K V) (a : Nat) (k : K) (v : V) : Table K V × Node K V × Bool := (t.resize hash (t.num + 1)).insertNoresize hash a k v

-- models: vital/kwiversys/hashtable.hxx.in:713-731 (find_or_insert); hash_map.hxx.in:163-165 (operator[], with the default value `d`)
def Table.index (hash : K → Nat) (t : Table K V) (a : Nat) (k : K) (d : V) : Table K V × Node K V :=
  let t := t.resize hash (t.num + 1)
  match (t.chain (t.bkt hash k)).find? fun x => x.key = k with
  | some x => (t, x)
  | none => (⟨t.buckets.set (t.bkt hash k) (⟨a, k, d⟩ :: t.chain (t.bkt hash k)), t.num + 1⟩, ⟨a, k, d⟩)

/-- A value written through a reference. -/
def Table.write (t : Table K V) (a : Nat) (v : V) : Table K V := { t with buckets := t.buckets.map fun c => c.map fun x => if x.at_ = a then { x with val := v } else x }

/-- A key argument: a value of its own, or a reference to the key of an element of the table. -/
inductive KeyRef (K : Type) where
  | value (k : K)
  | ofNode (a : Nat) (k : K)

def KeyRef.key : KeyRef K → K
  | .value k => k
  | .ofNode _ k => k

def KeyRef.isAt : KeyRef K → Nat → Bool
  | .value _, _ => false
  | .ofNode a _, b => a = b

/-- The loop over the nodes after the first: what is left, how many are erased, and whether the key the argument refers to is gone; no result if it is read then. -/
-- models: vital/kwiversys/hashtable.hxx.in:797-809
def eraseLoop (r : KeyRef K) : Bool → List (Node K V) → Option (List (Node K V) × Nat × Bool)
  | gone, [] => some ([], 0, gone)
  | gone, x :: c =>
    if gone then none
    else if x.key = r.key then (eraseLoop r (r.isAt x.at_) c).map fun q => (q.1, q.2.1 + 1, q.2.2)
    else (eraseLoop r false c).map fun q => (x :: q.1, q.2.1, q.2.2)

-- models: vital/kwiversys/hashtable.hxx.in:787-818 (erase by key)
def Table.eraseKey (hash : K → Nat) (t : Table K V) (r : KeyRef K) : Option (Table K V × Nat) :=
  match t.chain (t.bkt hash r.key) with
  | [] => some (t, 0)
  | x :: c =>
    match eraseLoop r false c with
    | none => none
    | some (c', n, gone) =>
      if gone then none
      else if x.key = r.key then some (⟨t.buckets.set (t.bkt hash r.key) c', t.num - (n + 1)⟩, n + 1)
      else some (⟨t.buckets.set (t.bkt hash r.key) (x :: c'), t.num - n⟩, n)

-- models: vital/kwiversys/hashtable.hxx.in:820-847 (erase of the element an iterator refers to)
def Table.eraseAt (hash : K → Nat) (t : Table K V) (x : Node K V) : Table K V :=
  ⟨t.buckets.set (t.bkt hash x.key) ((t.chain (t.bkt hash x.key)).eraseP fun y => y.at_ = x.at_), t.num - 1⟩

-- models: vital/kwiversys/hashtable.hxx.in:954-967 (clear)
def Table.clear (t : Table K V) : Table K V := ⟨t.buckets.map fun _ => [], 0⟩

/-- New nodes get the addresses the function gives. -/
-- models: vital/kwiversys/hashtable.hxx.in:970-995 (_M_copy_from), 291-312 (copy constructor, operator=)
def Table.copy (t : Table K V) (addr : Nat → Nat) : Table K V := { t with buckets := t.buckets.map fun c => c.map fun x => { x with at_ := addr x.at_ } }

/-- The first element of the first chain that is not empty. -/
def firstOf : List (List (Node K V)) → Option (Node K V)
  | [] => none
  | [] :: l => firstOf l
  | (x :: _) :: _ => some x

-- models: vital/kwiversys/hashtable.hxx.in:331-338 (begin)
def Table.begin_ (t : Table K V) : Option (Node K V) := firstOf t.buckets

/-- The element after one in its chain. -/
def after (a : Nat) (c : List (Node K V)) : Option (Node K V) := ((c.dropWhile fun y => y.at_ ≠ a).drop 1).head?

-- models: vital/kwiversys/hashtable.hxx.in:574-588 (operator++)
def Table.next (hash : K → Nat) (t : Table K V) (x : Node K V) : Option (Node K V) :=
  match (t.buckets.find? fun c => c.any fun y => y.at_ = x.at_).bind (after x.at_) with
  | some y => some y
  | none => firstOf (t.buckets.drop (t.bkt hash x.key + 1))

/-- The elements a loop from `begin()` to `end()` visits, at most so many. -/
def Table.walk (hash : K → Nat) (t : Table K V) : Nat → Option (Node K V) → List (Node K V)
  | 0, _ => []
  | _, none => []
  | n + 1, some x => x :: t.walk hash n (t.next hash x)

-- models: vital/kwiversys/hashtable.hxx.in:617-637 (operator==)
def Table.eq [DecidableEq V] (t u : Table K V) : Bool :=
  t.buckets.map (fun c => c.map fun x => (x.key, x.val)) = u.buckets.map (fun c => c.map fun x => (x.key, x.val))

/-! ### What holds of every table -/

def Table.nodes (t : Table K V) : List (Node K V) := t.buckets.flatten

structure Good (hash : K → Nat) (t : Table K V) : Prop where
  some_bucket : 0 < t.buckets.length
  size : t.num = t.nodes.length
  place : ∀ i c, t.buckets[i]? = some c → ∀ x ∈ c, hash x.key % t.buckets.length = i
  apart : (t.nodes.map Node.at_).Nodup

theorem split_at {α : Type} {l : List α} {i : Nat} (h : i < l.length) : ∃ a b c, l = a ++ b :: c ∧ a.length = i ∧ l[i]? = some b ∧ ∀ d, l.set i d = a ++ d :: c := by
  refine ⟨l.take i, l[i], l.drop (i + 1), ?_, by simp; omega, by simp [h], fun d => ?_⟩
  · rw [List.getElem_cons_drop, List.take_append_drop]
  · rw [List.set_eq_take_append_cons_drop, if_pos h]

theorem Good.bkt_lt {hash : K → Nat} {t : Table K V} (h : Good hash t) (k : K) : t.bkt hash k < t.buckets.length := Nat.mod_lt _ h.some_bucket

/-- The chain of a key, and the rest of the table, in which the key does not occur. -/
theorem Good.split {hash : K → Nat} {t : Table K V} (h : Good hash t) (k : K) : ∃ a c, t.buckets = a ++ t.chain (t.bkt hash k) :: c ∧
    (∀ d, t.buckets.set (t.bkt hash k) d = a ++ d :: c) ∧ a.length = t.bkt hash k ∧
    (∀ x ∈ a.flatten, x.key ≠ k) ∧ (∀ x ∈ c.flatten, x.key ≠ k) := by
  obtain ⟨a, b, c, h1, h2, h3, h4⟩ := split_at (h.bkt_lt k)
  have hb : t.chain (t.bkt hash k) = b := by unfold Table.chain; rw [h3]; rfl
  refine ⟨a, c, by rw [hb]; exact h1, h4, h2, ?_, ?_⟩
  · rintro x hx rfl
    obtain ⟨l, hl, hxl⟩ := List.mem_flatten.1 hx
    obtain ⟨i, hi, rfl⟩ := List.getElem_of_mem hl
    have := h.place i a[i] (by rw [h1, List.getElem?_append_left hi]; simp) x hxl
    unfold Table.bkt at h2; omega
  · rintro x hx rfl
    obtain ⟨l, hl, hxl⟩ := List.mem_flatten.1 hx
    obtain ⟨i, hi, rfl⟩ := List.getElem_of_mem hl
    have := h.place (a.length + 1 + i) c[i] (by
      rw [h1, List.getElem?_append_right (by omega), show a.length + 1 + i - a.length = i + 1 by omega, List.getElem?_cons_succ]; simp [hi]) x hxl
    unfold Table.bkt at h2; omega

theorem nodes_split {t : Table K V} {a c : List (List (Node K V))} {b : List (Node K V)} (h : t.buckets = a ++ b :: c) : t.nodes = a.flatten ++ (b ++ c.flatten) := by
  unfold Table.nodes; rw [h]; simp

theorem Good.mem_chain {hash : K → Nat} {t : Table K V} (h : Good hash t) {k : K} {x : Node K V} (hk : x.key = k) : x ∈ t.nodes ↔ x ∈ t.chain (t.bkt hash k) := by
  obtain ⟨a, c, h1, -, -, h2, h3⟩ := h.split k
  rw [nodes_split h1]
  simp only [List.mem_append]
  constructor
  · rintro (hx | hx | hx)
    · exact absurd hk (h2 x hx)
    · exact hx
    · exact absurd hk (h3 x hx)
  · exact fun hx => .inr (.inl hx)

theorem filter_nil_of {l : List (Node K V)} {k : K} (h : ∀ x ∈ l, x.key ≠ k) : (l.filter fun x => x.key = k) = [] := by
  rw [List.filter_eq_nil_iff]
  intro x hx; simpa using h x hx

theorem filter_self_of {l : List (Node K V)} {k : K} (h : ∀ x ∈ l, x.key ≠ k) : (l.filter fun x => x.key ≠ k) = l := by
  rw [List.filter_eq_self]
  intro x hx; simpa using h x hx

/-- The elements with a key are those in its chain, in the same order. -/
theorem Good.filter_chain {hash : K → Nat} {t : Table K V} (h : Good hash t) (k : K) : (t.nodes.filter fun x => x.key = k) = (t.chain (t.bkt hash k)).filter fun x => x.key = k := by
  obtain ⟨a, c, h1, -, -, h2, h3⟩ := h.split k
  rw [nodes_split h1, List.filter_append, List.filter_append, filter_nil_of h2, filter_nil_of h3]
  simp

theorem Good.find_eq {hash : K → Nat} {t : Table K V} (h : Good hash t) (k : K) : t.find hash k = t.nodes.find? fun x => x.key = k := by
  unfold Table.find
  rw [← List.head?_filter, ← List.head?_filter, h.filter_chain]

/-- A chain replaced by one with the right keys. -/
theorem Good.set {hash : K → Nat} {t : Table K V} (h : Good hash t) (k : K) {d : List (Node K V)} {m : Nat}
    (hd : ∀ x ∈ d, hash x.key % t.buckets.length = t.bkt hash k)
    (ha : ∀ a c : List (Node K V), t.nodes = a ++ (t.chain (t.bkt hash k) ++ c) → m = (a ++ (d ++ c)).length ∧ ((a ++ (d ++ c)).map Node.at_).Nodup) :
    Good hash ⟨t.buckets.set (t.bkt hash k) d, m⟩ := by
  obtain ⟨a, c, h1, h2, h3, -, -⟩ := h.split k
  obtain ⟨g1, g2⟩ := ha _ _ (nodes_split h1)
  have hn : (⟨t.buckets.set (t.bkt hash k) d, m⟩ : Table K V).nodes = a.flatten ++ (d ++ c.flatten) := nodes_split (h2 d)
  refine ⟨by simpa using h.some_bucket, by rw [hn]; exact g1, ?_, by rw [hn]; exact g2⟩
  intro i e he x hx
  simp only [List.length_set]
  rw [List.getElem?_set] at he
  split at he
  · rename_i hi
    simp only [Option.ite_none_right_eq_some, Option.some.injEq] at he
    rw [← hi]
    exact hd x (by rw [he.2]; exact hx)
  · exact h.place i e he x hx

/-! ### Making room -/

theorem flatten_modify {l : List (List (Node K V))} {i : Nat} {x : Node K V} (h : i < l.length) : (l.modify i (x :: ·)).flatten.Perm (x :: l.flatten) := by
  induction l generalizing i with
  | nil => simp at h
  | cons c l ih =>
    cases i with
    | zero => simp
    | succ i =>
      simp only [List.modify_succ_cons, List.flatten_cons]
      exact ((ih (by simpa using h)).append_left c).trans List.perm_middle

theorem foldl_put {hash : K → Nat} {n : Nat} (hn : 0 < n) : ∀ (l : List (Node K V)) (tmp : List (List (Node K V))), tmp.length = n →
    (l.foldl (put hash n) tmp).length = n ∧ (l.foldl (put hash n) tmp).flatten.Perm (l ++ tmp.flatten) := by
  intro l
  induction l with
  | nil => intro tmp h; exact ⟨h, List.Perm.refl _⟩
  | cons x l ih =>
    intro tmp h
    obtain ⟨h1, h2⟩ := ih (put hash n tmp x) (by unfold put; simpa using h)
    refine ⟨h1, h2.trans ?_⟩
    have := flatten_modify (l := tmp) (i := hash x.key % n) (x := x) (by rw [h]; exact Nat.mod_lt _ hn)
    exact (this.append_left l).trans List.perm_middle

theorem foldl_put_place {hash : K → Nat} {n : Nat} : ∀ (l : List (Node K V)) (tmp : List (List (Node K V))),
    (∀ i c, tmp[i]? = some c → ∀ x ∈ c, hash x.key % n = i) → ∀ i c, (l.foldl (put hash n) tmp)[i]? = some c → ∀ x ∈ c, hash x.key % n = i := by
  intro l
  induction l with
  | nil => intro tmp h; exact h
  | cons x l ih =>
    intro tmp h
    apply ih
    intro i c hc y hy
    unfold put at hc
    rw [List.getElem?_modify] at hc
    obtain ⟨c', hc', rfl⟩ := Option.map_eq_some_iff.1 hc
    split at hy
    · rename_i he
      rcases List.mem_cons.1 hy with rfl | hy
      · exact he
      · exact h i c' hc' y hy
    · exact h i c' hc' y hy

theorem nextPrime_ge (n : Nat) : 5 ≤ nextPrime n := by
  unfold nextPrime
  cases h : primes.find? (fun p => n ≤ p) with
  | none => simp
  | some p =>
    have := List.mem_of_find?_eq_some h
    simp only [Option.getD_some]
    have hall : ∀ p ∈ primes, 5 ≤ p := by decide
    exact hall p this

theorem rehash_eq (hash : K → Nat) (t : Table K V) (n : Nat) :
    t.buckets.foldl (fun tmp c => c.foldl (put hash n) tmp) (List.replicate n []) = t.nodes.foldl (put hash n) (List.replicate n []) := by
  unfold Table.nodes; rw [List.foldl_flatten]

/-- Making room changes no element. -/
theorem Good.resize {hash : K → Nat} {t : Table K V} (h : Good hash t) (hint : Nat) : Good hash (t.resize hash hint) ∧ (t.resize hash hint).nodes.Perm t.nodes := by
  unfold Table.resize
  split
  · split
    · have hn : 0 < nextPrime hint := by have := nextPrime_ge hint; omega
      obtain ⟨h1, h2⟩ := foldl_put (hash := hash) hn t.nodes (List.replicate (nextPrime hint) []) (by simp)
      have hp : (t.nodes.foldl (put hash (nextPrime hint)) (List.replicate (nextPrime hint) [])).flatten.Perm t.nodes := by simpa using h2
      rw [rehash_eq]
      refine ⟨⟨by simp only; omega, ?_, ?_, ?_⟩, hp⟩
      · rw [h.size]; exact hp.length_eq.symm
      · intro i c hc x hx
        simp only at hc ⊢
        rw [h1]
        refine foldl_put_place t.nodes _ ?_ i c hc x hx
        intro i c hc x hx
        rw [List.getElem?_replicate] at hc
        split at hc
        · cases hc; cases hx
        · cases hc
      · exact (hp.map Node.at_).nodup_iff.2 h.apart
    · exact ⟨h, List.Perm.refl _⟩
  · exact ⟨h, List.Perm.refl _⟩

theorem good_init (hash : K → Nat) (n : Nat) : Good hash (init n : Table K V) := by
  have hnil : (init n : Table K V).nodes = [] := by unfold Table.nodes init; simp
  refine ⟨by have := nextPrime_ge n; unfold init; simp; omega, by rw [hnil]; rfl, ?_, by rw [hnil]; simp⟩
  intro i c hc x hx
  unfold init at hc
  simp only [List.getElem?_replicate] at hc
  split at hc
  · cases hc; cases hx
  · cases hc

/-! ### Elements -/

def pair (x : Node K V) : K × V := (x.key, x.val)

def Table.pairs (t : Table K V) : List (K × V) := t.nodes.map pair

theorem notMem_of_find {l : List (Node K V)} {k : K} (h : (l.find? fun x => x.key = k) = none) : ∀ x ∈ l, x.key ≠ k := by
  intro x hx
  have := List.find?_eq_none.1 h x hx
  simpa using this

theorem Good.insertNoresize {hash : K → Nat} {t : Table K V} (h : Good hash t) {a : Nat} (ha : a ∉ t.nodes.map Node.at_) (k : K) (v : V) :
    Good hash (t.insertNoresize hash a k v).1 ∧
    ((∃ x, (t.nodes.find? fun x => x.key = k) = some x ∧ t.insertNoresize hash a k v = (t, x, false)) ∨
     ((∀ x ∈ t.nodes, x.key ≠ k) ∧ (t.insertNoresize hash a k v).1.nodes.Perm (⟨a, k, v⟩ :: t.nodes) ∧ (t.insertNoresize hash a k v).2 = (⟨a, k, v⟩, true))) := by
  have hf := h.find_eq k
  unfold Table.find at hf
  unfold Table.insertNoresize
  rw [hf]
  cases hc : t.nodes.find? fun x => x.key = k with
  | some x => exact ⟨h, .inl ⟨x, rfl, rfl⟩⟩
  | none =>
    obtain ⟨b, c, h1, h2, -, -, -⟩ := h.split k
    have hperm : ∀ b c : List (Node K V), (b ++ (⟨a, k, v⟩ :: t.chain (t.bkt hash k) ++ c)).Perm (⟨a, k, v⟩ :: (b ++ (t.chain (t.bkt hash k) ++ c))) := by
      intro b c
      rw [List.cons_append]; exact List.perm_middle
    refine ⟨h.set k ?_ ?_, .inr ⟨notMem_of_find hc, ?_, rfl⟩⟩
    · intro x hx
      rcases List.mem_cons.1 hx with rfl | hx
      · rfl
      · have hlt := h.bkt_lt k
        refine h.place _ (t.chain (t.bkt hash k)) ?_ x hx
        unfold Table.chain; simp [hlt]
    · intro b c hbc
      have hp := hperm b c
      rw [← hbc] at hp
      refine ⟨by rw [hp.length_eq, h.size]; rfl, ((hp.map Node.at_).nodup_iff).2 ?_⟩
      rw [List.map_cons, List.nodup_cons]; exact ⟨ha, h.apart⟩
    · have hn : (⟨t.buckets.set (t.bkt hash k) (⟨a, k, v⟩ :: t.chain (t.bkt hash k)), t.num + 1⟩ : Table K V).nodes = b.flatten ++ ((⟨a, k, v⟩ :: t.chain (t.bkt hash k)) ++ c.flatten) := nodes_split (h2 _)
      rw [hn, nodes_split h1]
      exact hperm _ _

theorem index_eq (hash : K → Nat) (t : Table K V) (a : Nat) (k : K) (d : V) : t.index hash a k d = ((t.insert hash a k d).1, (t.insert hash a k d).2.1) := by
  unfold Table.index Table.insert Table.insertNoresize
  simp only
  split <;> rfl

theorem Good.insert {hash : K → Nat} {t : Table K V} (h : Good hash t) {a : Nat} (ha : a ∉ t.nodes.map Node.at_) (k : K) (v : V) :
    Good hash (t.insert hash a k v).1 ∧
    ((∃ x ∈ t.nodes, x.key = k ∧ (t.insert hash a k v).1.nodes.Perm t.nodes ∧ (t.insert hash a k v).2 = (x, false)) ∨
     ((∀ x ∈ t.nodes, x.key ≠ k) ∧ (t.insert hash a k v).1.nodes.Perm (⟨a, k, v⟩ :: t.nodes) ∧ (t.insert hash a k v).2 = (⟨a, k, v⟩, true))) := by
  obtain ⟨h1, h2⟩ := h.resize (t.num + 1)
  obtain ⟨g1, g2⟩ := h1.insertNoresize (a := a) (by rw [(h2.map Node.at_).mem_iff]; exact ha) k v
  refine ⟨g1, ?_⟩
  unfold Table.insert
  rcases g2 with ⟨x, e1, e2⟩ | ⟨e1, e2, e3⟩
  · left
    rw [e2]
    exact ⟨x, (h2.mem_iff).1 (List.mem_of_find?_eq_some e1), by simpa using List.find?_some e1, h2, rfl⟩
  · right
    exact ⟨fun x hx => e1 x ((h2.mem_iff).2 hx), e2.trans (h2.cons _), e3⟩

theorem eraseLoop_value (k : K) (c : List (Node K V)) :
    eraseLoop (.value k) false c = some (c.filter (fun x => x.key ≠ k), (c.filter fun x => x.key = k).length, false) := by
  induction c with
  | nil => rfl
  | cons x c ih =>
    rw [eraseLoop]
    simp only [Bool.false_eq_true, ↓reduceIte, KeyRef.key, KeyRef.isAt]
    by_cases h : x.key = k
    · simp [h, ih]
    · simp [h, ih]

/-- A chain with elements taken out. -/
theorem Good.sub {hash : K → Nat} {t : Table K V} (h : Good hash t) (k : K) {d : List (Node K V)} (hd : d.Sublist (t.chain (t.bkt hash k))) :
    Good hash ⟨t.buckets.set (t.bkt hash k) d, t.num - ((t.chain (t.bkt hash k)).length - d.length)⟩ := by
  have hl := hd.length_le
  refine h.set k ?_ ?_
  · intro x hx
    have hlt := h.bkt_lt k
    refine h.place _ (t.chain (t.bkt hash k)) ?_ x (hd.subset hx)
    unfold Table.chain; simp [hlt]
  · intro b c hbc
    refine ⟨?_, ?_⟩
    · rw [h.size, hbc]; simp only [List.length_append]; omega
    · have := h.apart
      rw [hbc] at this
      exact this.sublist (((List.Sublist.refl b).append (hd.append (List.Sublist.refl c))).map _)

/-- Erasing by a key that is not part of the table. -/
theorem Good.eraseValue {hash : K → Nat} {t : Table K V} (h : Good hash t) (k : K) :
    ∃ t', t.eraseKey hash (.value k) = some (t', (t.nodes.filter fun x => x.key = k).length) ∧ Good hash t' ∧ t'.nodes = t.nodes.filter fun x => x.key ≠ k := by
  obtain ⟨b, c, h1, h2, -, h3, h4⟩ := h.split k
  have hlen : (t.chain (t.bkt hash k)).length - ((t.chain (t.bkt hash k)).filter fun x => x.key ≠ k).length = ((t.chain (t.bkt hash k)).filter fun x => x.key = k).length := by
    generalize t.chain (t.bkt hash k) = l
    have := List.length_eq_length_filter_add (l := l) (fun x => decide (x.key = k))
    have e : (l.filter fun x => !decide (x.key = k)) = l.filter fun x => x.key ≠ k := by congr 1; funext x; simp
    rw [e] at this; omega
  have hg := h.sub k (d := (t.chain (t.bkt hash k)).filter fun x => x.key ≠ k) List.filter_sublist
  have hnodes : ∀ m, (⟨t.buckets.set (t.bkt hash k) ((t.chain (t.bkt hash k)).filter fun x => x.key ≠ k), m⟩ : Table K V).nodes = t.nodes.filter fun x => x.key ≠ k := by
    intro m
    rw [nodes_split (t := ⟨t.buckets.set (t.bkt hash k) ((t.chain (t.bkt hash k)).filter fun x => x.key ≠ k), m⟩) (h2 _), nodes_split h1, List.filter_append, List.filter_append, filter_self_of h3, filter_self_of h4]
  rw [hlen] at hg
  refine ⟨_, ?_, hg, hnodes _⟩
  rw [h.filter_chain]
  unfold Table.eraseKey
  simp only [KeyRef.key]
  cases hc : t.chain (t.bkt hash k) with
  | nil =>
    simp only [List.filter_nil, List.length_nil, Nat.sub_zero]
    have : t.buckets.set (t.bkt hash k) [] = t.buckets := by rw [h2, ← hc]; exact h1.symm
    rw [this]
  | cons x c' =>
    simp only [eraseLoop_value, Bool.false_eq_true, ↓reduceIte]
    by_cases hx : x.key = k
    · simp [hx]
    · simp [hx]

theorem Good.eraseAt {hash : K → Nat} {t : Table K V} (h : Good hash t) {x : Node K V} (hx : x ∈ t.nodes) :
    Good hash (t.eraseAt hash x) ∧ (x :: (t.eraseAt hash x).nodes).Perm t.nodes := by
  have hm := (h.mem_chain (k := x.key) rfl).1 hx
  obtain ⟨b, c, h1, h2, -, -, -⟩ := h.split x.key
  obtain ⟨y, l1, l2, e1, e2, e3, e4⟩ := List.exists_of_eraseP (p := fun y : Node K V => decide (y.at_ = x.at_)) hm (by simp)
  -- the element found is the one
  have hyx : y = x := by
    have hy : y ∈ t.nodes := by rw [nodes_split h1, e3]; simp
    exact List.inj_on_of_nodup_map h.apart hy hx (by simpa using e2)
  subst hyx
  have hs : ((t.chain (t.bkt hash y.key)).eraseP fun z => z.at_ = y.at_).Sublist (t.chain (t.bkt hash y.key)) := List.eraseP_sublist
  have hg := h.sub y.key hs
  have hl : (t.chain (t.bkt hash y.key)).length - ((t.chain (t.bkt hash y.key)).eraseP fun z => z.at_ = y.at_).length = 1 := by
    have e4' : ((t.chain (t.bkt hash y.key)).eraseP fun z => z.at_ = y.at_) = l1 ++ l2 := e4
    rw [e4', e3]; simp only [List.length_append, List.length_cons]; omega
  rw [hl] at hg
  refine ⟨hg, ?_⟩
  have hn : (t.eraseAt hash y).nodes = b.flatten ++ (((t.chain (t.bkt hash y.key)).eraseP fun z => z.at_ = y.at_) ++ c.flatten) := nodes_split (h2 _)
  have e4' : ((t.chain (t.bkt hash y.key)).eraseP fun z => z.at_ = y.at_) = l1 ++ l2 := e4
  rw [hn, nodes_split h1, e4', e3]
  simp only [List.append_assoc, List.cons_append]
  rw [← List.append_assoc, ← List.append_assoc b.flatten]
  exact List.perm_middle.symm

theorem Good.clear {hash : K → Nat} {t : Table K V} (h : Good hash t) : Good hash t.clear ∧ t.clear.nodes = [] := by
  have hn : t.clear.nodes = [] := by
    unfold Table.clear Table.nodes
    simp
  refine ⟨⟨by unfold Table.clear; simpa using h.some_bucket, by rw [hn]; rfl, ?_, by rw [hn]; simp⟩, hn⟩
  intro i c hc x hx
  unfold Table.clear at hc
  simp only [List.getElem?_map, Option.map_eq_some_iff] at hc
  obtain ⟨_, -, rfl⟩ := hc
  cases hx

theorem nodes_map (t : Table K V) (f : Node K V → Node K V) (m : Nat) : (⟨t.buckets.map fun c => c.map f, m⟩ : Table K V).nodes = t.nodes.map f := by
  unfold Table.nodes; simp [List.map_flatten]

theorem Good.map {hash : K → Nat} {t : Table K V} (h : Good hash t) {f : Node K V → Node K V} (hf : ∀ x, (f x).key = x.key) (ha : (t.nodes.map fun x => (f x).at_).Nodup) :
    Good hash ⟨t.buckets.map fun c => c.map f, t.num⟩ := by
  refine ⟨by simpa using h.some_bucket, by rw [nodes_map]; simpa using h.size, ?_, ?_⟩
  · intro i c hc x hx
    simp only [List.getElem?_map, Option.map_eq_some_iff] at hc
    obtain ⟨c', hc', rfl⟩ := hc
    obtain ⟨y, hy, rfl⟩ := List.mem_map.1 hx
    simp only [List.length_map, hf]
    exact h.place i c' hc' y hy
  · rw [nodes_map, List.map_map]; exact ha

theorem Good.write {hash : K → Nat} {t : Table K V} (h : Good hash t) (a : Nat) (v : V) : Good hash (t.write a v) ∧
    (t.write a v).nodes = t.nodes.map fun x => if x.at_ = a then { x with val := v } else x := by
  refine ⟨h.map (fun x => by split <;> rfl) ?_, nodes_map _ _ _⟩
  have : (t.nodes.map fun x => (if x.at_ = a then { x with val := v } else x : Node K V).at_) = t.nodes.map Node.at_ := by
    apply List.map_congr_left; intro x _; split <;> rfl
  rw [this]; exact h.apart

/-! ### Iteration -/

theorem firstOf_eq (l : List (List (Node K V))) : firstOf l = l.flatten.head? := by
  induction l with
  | nil => rfl
  | cons c l ih => cases c with
    | nil => simp [firstOf, ih]
    | cons x c => simp [firstOf]

theorem unique_place {l1 l2 m1 m2 : List (Node K V)} {x : Node K V} (h : l1 ++ x :: l2 = m1 ++ x :: m2) (hn : ((l1 ++ x :: l2).map Node.at_).Nodup) : l1 = m1 ∧ l2 = m2 := by
  induction l1 generalizing m1 with
  | nil =>
    cases m1 with
    | nil => simp at h; exact ⟨rfl, h⟩
    | cons y m1 =>
      simp only [List.nil_append, List.cons_append, List.cons.injEq] at h
      obtain ⟨rfl, rfl⟩ := h
      simp at hn
  | cons y l1 ih =>
    cases m1 with
    | nil =>
      simp only [List.nil_append, List.cons_append, List.cons.injEq] at h
      obtain ⟨rfl, rfl⟩ := h
      simp at hn
    | cons z m1 =>
      simp only [List.cons_append, List.cons.injEq] at h
      obtain ⟨rfl, h⟩ := h
      simp only [List.cons_append, List.map_cons, List.nodup_cons] at hn
      obtain ⟨rfl, rfl⟩ := ih h hn.2
      exact ⟨rfl, rfl⟩

theorem Good.next {hash : K → Nat} {t : Table K V} (h : Good hash t) {pre post : List (Node K V)} {x : Node K V} (hx : t.nodes = pre ++ x :: post) :
    t.next hash x = post.head? := by
  have hmem : x ∈ t.nodes := by rw [hx]; simp
  have hm := (h.mem_chain (k := x.key) rfl).1 hmem
  obtain ⟨a, c, h1, -, h3, h4, -⟩ := h.split x.key
  obtain ⟨b1, b2, hb⟩ := List.append_of_mem hm
  have hn := h.apart
  rw [nodes_split h1, hb] at hn
  have hx2 : t.nodes = (a.flatten ++ b1) ++ x :: (b2 ++ c.flatten) := by rw [nodes_split h1, hb]; simp
  obtain ⟨-, hpost⟩ := unique_place (l1 := pre) (l2 := post) (m1 := a.flatten ++ b1) (m2 := b2 ++ c.flatten) (x := x) (by rw [← hx, hx2]) (by rw [← hx]; exact h.apart)
  have hnot : ∀ y ∈ a.flatten ++ b1, y.at_ ≠ x.at_ := by
    intro y hy e
    have hnd := h.apart
    rw [hx2, List.map_append, List.map_cons, List.nodup_append] at hnd
    exact hnd.2.2 _ (List.mem_map_of_mem hy) _ List.mem_cons_self e
  have hfind : (t.buckets.find? fun c => c.any fun y => y.at_ = x.at_) = some (t.chain (t.bkt hash x.key)) := by
    rw [h1, List.find?_append]
    have : (a.find? fun c => c.any fun y => y.at_ = x.at_) = none := by
      rw [List.find?_eq_none]
      intro l hl
      simp only [List.any_eq_true, decide_eq_true_eq, not_exists, not_and]
      intro y hy
      exact hnot y (List.mem_append_left _ (List.mem_flatten.2 ⟨l, hl, hy⟩))
    rw [this]
    simp only [Option.none_or]
    rw [List.find?_cons_of_pos]
    rw [hb]; simp
  have hafter : after x.at_ (t.chain (t.bkt hash x.key)) = b2.head? := by
    unfold after
    rw [hb]
    have : (b1 ++ x :: b2).dropWhile (fun y => y.at_ ≠ x.at_) = x :: b2 := by
      rw [List.dropWhile_append_of_pos (by intro y hy; simpa using hnot y (List.mem_append_right _ hy))]
      rw [List.dropWhile_cons_of_neg (by simp)]
    rw [this]; rfl
  unfold Table.next
  rw [hfind]
  simp only [Option.bind_some, hafter, hpost]
  cases b2 with
  | cons y b2 => rfl
  | nil =>
    simp only [List.head?_nil, List.nil_append]
    rw [firstOf_eq, ← h3, h1]
    simp

/-- A loop from `begin()` to `end()` visits every element once, and ends. -/
theorem Good.walk {hash : K → Nat} {t : Table K V} (h : Good hash t) (more : Nat) : t.walk hash (t.num + more) t.begin_ = t.nodes := by
  have key : ∀ post pre : List (Node K V), t.nodes = pre ++ post → t.walk hash (post.length + more) post.head? = post := by
    intro post
    induction post with
    | nil => intro _ _; cases more <;> rfl
    | cons x post ih =>
      intro pre hp
      rw [List.length_cons, show post.length + 1 + more = (post.length + more) + 1 by omega]
      simp only [List.head?_cons, Table.walk]
      rw [h.next hp, ih (pre ++ [x]) (by rw [hp]; simp)]
  unfold Table.begin_
  rw [firstOf_eq, h.size]
  exact key t.nodes [] rfl

end Vital.Hash
