import Verif.Sys.HashTable
/-
  Properties C157 (hash_map and hash_set are finite maps and sets), C158 (elements stay where they are), C159 (erasing by a key), C160 (equality).
  A hash_set is the case of values of type Unit.
-/
namespace Vital.Hash

variable {K V : Type} [DecidableEq K]

/-! ### The interface -/

inductive Op (K V : Type) where
  | insert (k : K) (v : V)                       -- m.insert(pair(k, v))
  | insertNoresize (k : K) (v : V)               -- m.insert_noresize(pair(k, v))
  | insertAll (fwd : Bool) (l : List (K × V))    -- m.insert(first, last), the constructors from a range; with forward iterators room is made once
  | read (k : K)                                 -- m[k]
  | assign (k : K) (v : V)                       -- m[k] = v
  | find (k : K)
  | count (k : K)
  | erase (k : K)                                -- with a key that is not part of the map
  | eraseFound (k : K)                           -- m.erase(m.find(k))
  | clear
  | resize (n : Nat)
  | size
  | empty
  | elements                                     -- a loop from begin() to end()

inductive Out (K V : Type) where
  | done
  | inserted (v : V) (new : Bool)                -- the value of the element the iterator refers to, and whether it is new
  | value (v : V)
  | found (v : Option V)
  | number (n : Nat)
  | flag (b : Bool)
  | list (l : List (K × V))

/-- A new node is at an address `fresh` finds, given those in use. -/
-- models: vital/kwiversys/hashtable.hxx.in:398-445 (insert_unique of a range)
def Table.insertSeq (hash : K → Nat) (fresh : List Nat → Nat) (noresize : Bool) (t : Table K V) (l : List (K × V)) : Table K V :=
  l.foldl (fun t p => if noresize then (t.insertNoresize hash (fresh (t.nodes.map Node.at_)) p.1 p.2).1 else (t.insert hash (fresh (t.nodes.map Node.at_)) p.1 p.2).1) t

-- models: vital/kwiversys/hash_map.hxx.in:140-190, hash_set.hxx.in:120-190 (each member function passes the call to the table)
def step (hash : K → Nat) (fresh : List Nat → Nat) (d : V) (t : Table K V) : Op K V → Option (Table K V × Out K V)
  | .insert k v => let r := t.insert hash (fresh (t.nodes.map Node.at_)) k v; some (r.1, .inserted r.2.1.val r.2.2)
  | .insertNoresize k v => let r := t.insertNoresize hash (fresh (t.nodes.map Node.at_)) k v; some (r.1, .inserted r.2.1.val r.2.2)
  | .insertAll true l => some ((t.resize hash (t.num + l.length)).insertSeq hash fresh true l, .done)
  | .insertAll false l => some (t.insertSeq hash fresh false l, .done)
  | .read k => let r := t.index hash (fresh (t.nodes.map Node.at_)) k d; some (r.1, .value r.2.val)
  | .assign k v => let r := t.index hash (fresh (t.nodes.map Node.at_)) k d; some (r.1.write r.2.at_ v, .done)
  | .find k => some (t, .found ((t.find hash k).map Node.val))
  | .count k => some (t, .number (t.count hash k))
  | .erase k => (t.eraseKey hash (.value k)).map fun r => (r.1, .number r.2)
  | .eraseFound k => match t.find hash k with
    | none => some (t, .done)
    | some x => some (t.eraseAt hash x, .done)
  | .clear => some (t.clear, .done)
  | .resize n => some (t.resize hash n, .done)
  | .size => some (t, .number t.num)
  | .empty => some (t, .flag (t.num = 0))
  | .elements => some (t, .list ((t.walk hash (t.num + 1) t.begin_).map pair))

def run (hash : K → Nat) (fresh : List Nat → Nat) (d : V) (t : Table K V) : List (Op K V) → Option (Table K V × List (Out K V))
  | [] => some (t, [])
  | op :: ops => match step hash fresh d t op with
    | none => none
    | some (t', o) => (run hash fresh d t' ops).map fun r => (r.1, o :: r.2)

/-! ### Specification: a finite map is a partial function -/

def upd (f : K → Option V) (k : K) (v : Option V) : K → Option V := fun k' => if k' = k then v else f k'

/-- The first value given for a key is taken, and only if there is none yet. -/
def addAll (f : K → Option V) (l : List (K × V)) : K → Option V := l.foldl (fun f p => upd f p.1 (some ((f p.1).getD p.2))) f

def after1 (d : V) (f : K → Option V) : Op K V → K → Option V
  | .insert k v | .insertNoresize k v => upd f k (some ((f k).getD v))
  | .insertAll _ l => addAll f l
  | .read k => upd f k (some ((f k).getD d))
  | .assign k v => upd f k (some v)
  | .erase k | .eraseFound k => upd f k none
  | .clear => fun _ => none
  | _ => f

/-- A list of all keys with a value, each once. -/
def Domain (f : K → Option V) (ks : List K) : Prop := ks.Nodup ∧ ∀ k, k ∈ ks ↔ f k ≠ none

def Answers (d : V) (f : K → Option V) : Op K V → Out K V → Prop
  | .insert k v, o | .insertNoresize k v, o => o = .inserted ((f k).getD v) (f k).isNone
  | .read k, o => o = .value ((f k).getD d)
  | .find k, o => o = .found (f k)
  | .count k, o | .erase k, o => o = .number (if f k = none then 0 else 1)
  | .size, o => ∃ ks, Domain f ks ∧ o = .number ks.length
  | .empty, o => ∃ b, o = .flag b ∧ (b = true ↔ ∀ k, f k = none)
  | .elements, o => ∃ l : List (K × V), o = .list l ∧ (l.map Prod.fst).Nodup ∧ ∀ k v, (k, v) ∈ l ↔ f k = some v
  | _, o => o = .done

/-- The state after operations on a map, and answers that agree with it. -/
def Follows (d : V) : (K → Option V) → List (Op K V) → (K → Option V) → List (Out K V) → Prop
  | f, [], g, os => g = f ∧ os = []
  | f, op :: ops, g, os => ∃ o os', os = o :: os' ∧ Answers d f op o ∧ Follows d (after1 d f op) ops g os'

/-! ### Refinement -/

structure Rep (hash : K → Nat) (t : Table K V) (f : K → Option V) : Prop where
  good : Good hash t
  once : (t.nodes.map Node.key).Nodup
  same : ∀ k v, (∃ x ∈ t.nodes, x.key = k ∧ x.val = v) ↔ f k = some v

theorem Rep.perm {hash : K → Nat} {t u : Table K V} {f : K → Option V} (h : Rep hash t f) (hu : Good hash u) (hp : u.nodes.Perm t.nodes) : Rep hash u f :=
  ⟨hu, ((hp.map Node.key).nodup_iff).2 h.once, fun k v => by
    rw [← h.same]; simp only [hp.mem_iff]⟩

theorem Rep.find {hash : K → Nat} {t : Table K V} {f : K → Option V} (h : Rep hash t f) (k : K) : (t.find hash k).map Node.val = f k := by
  rw [h.good.find_eq]
  cases hc : t.nodes.find? fun x => x.key = k with
  | none =>
    cases hf : f k with
    | none => rfl
    | some v =>
      obtain ⟨x, hx, hk, -⟩ := (h.same k v).2 hf
      exact absurd hk (notMem_of_find hc x hx)
  | some x => exact ((h.same k x.val).1 ⟨x, List.mem_of_find?_eq_some hc, by simpa using List.find?_some hc, rfl⟩).symm

theorem Rep.none_iff {hash : K → Nat} {t : Table K V} {f : K → Option V} (h : Rep hash t f) (k : K) : f k = none ↔ ∀ x ∈ t.nodes, x.key ≠ k := by
  constructor
  · intro hf x hx hk
    have := (h.same k x.val).1 ⟨x, hx, hk, rfl⟩
    rw [hf] at this; cases this
  · intro hx
    cases hf : f k with
    | none => rfl
    | some v =>
      obtain ⟨x, hm, hk, -⟩ := (h.same k v).2 hf
      exact absurd hk (hx x hm)

theorem Rep.eq_of_key {hash : K → Nat} {t : Table K V} {f : K → Option V} (h : Rep hash t f) {x y : Node K V} (hx : x ∈ t.nodes) (hy : y ∈ t.nodes) (hk : x.key = y.key) : x = y :=
  List.inj_on_of_nodup_map h.once hx hy hk

/-- An element is added. -/
theorem Rep.add {hash : K → Nat} {t u : Table K V} {f : K → Option V} (h : Rep hash t f) (hu : Good hash u) {a : Nat} {k : K} {v : V} (hk : ∀ x ∈ t.nodes, x.key ≠ k)
    (hp : u.nodes.Perm (⟨a, k, v⟩ :: t.nodes)) : Rep hash u (upd f k (some v)) := by
  refine ⟨hu, ((hp.map Node.key).nodup_iff).2 ?_, ?_⟩
  · rw [List.map_cons, List.nodup_cons]
    refine ⟨?_, h.once⟩
    rw [List.mem_map]; rintro ⟨x, hx, e⟩; exact hk x hx e
  · intro k' v'
    simp only [hp.mem_iff, List.mem_cons, upd]
    constructor
    · rintro ⟨x, rfl | hx, rfl, rfl⟩
      · simp
      · rw [if_neg (hk x hx)]; exact (h.same _ _).1 ⟨x, hx, rfl, rfl⟩
    · intro e
      split at e
      · rename_i hkk; cases e; exact ⟨_, .inl rfl, hkk.symm, rfl⟩
      · obtain ⟨x, hx, e1, e2⟩ := (h.same _ _).2 e
        exact ⟨x, .inr hx, e1, e2⟩

theorem upd_self {f : K → Option V} {k : K} {v : Option V} (h : f k = v) : upd f k v = f := by
  funext k'; unfold upd; split
  · rename_i e; rw [e, h]
  · rfl

theorem Rep.insertNoresize {hash : K → Nat} {t : Table K V} {f : K → Option V} (h : Rep hash t f) {a : Nat} (ha : a ∉ t.nodes.map Node.at_) (k : K) (v : V) :
    Rep hash (t.insertNoresize hash a k v).1 (upd f k (some ((f k).getD v))) ∧
    (t.insertNoresize hash a k v).2.1.val = (f k).getD v ∧ (t.insertNoresize hash a k v).2.2 = (f k).isNone ∧
    (t.insertNoresize hash a k v).2.1 ∈ (t.insertNoresize hash a k v).1.nodes ∧ (t.insertNoresize hash a k v).2.1.key = k := by
  obtain ⟨g1, ⟨x, e1, e2⟩ | ⟨e1, e2, e3⟩⟩ := h.good.insertNoresize ha k v
  · have hx : x ∈ t.nodes := List.mem_of_find?_eq_some e1
    have hk : x.key = k := by simpa using List.find?_some e1
    have hf : f k = some x.val := (h.same k x.val).1 ⟨x, hx, hk, rfl⟩
    rw [e2]
    refine ⟨?_, by simp [hf], by simp [hf], hx, hk⟩
    rw [upd_self (by simp [hf])]; exact h
  · have hf : f k = none := (h.none_iff k).2 e1
    rw [e3]
    refine ⟨?_, by simp [hf], by simp [hf], ?_, rfl⟩
    · simpa [hf] using h.add g1 e1 e2
    · rw [e2.mem_iff]; simp

theorem Rep.resize {hash : K → Nat} {t : Table K V} {f : K → Option V} (h : Rep hash t f) (n : Nat) : Rep hash (t.resize hash n) f :=
  let ⟨h1, h2⟩ := h.good.resize n
  h.perm h1 h2

theorem resize_at {hash : K → Nat} {t : Table K V} (h : Good hash t) (n : Nat) {a : Nat} (ha : a ∉ t.nodes.map Node.at_) : a ∉ (t.resize hash n).nodes.map Node.at_ := by
  rw [((h.resize n).2.map Node.at_).mem_iff]; exact ha

theorem Rep.insert {hash : K → Nat} {t : Table K V} {f : K → Option V} (h : Rep hash t f) {a : Nat} (ha : a ∉ t.nodes.map Node.at_) (k : K) (v : V) :
    Rep hash (t.insert hash a k v).1 (upd f k (some ((f k).getD v))) ∧
    (t.insert hash a k v).2.1.val = (f k).getD v ∧ (t.insert hash a k v).2.2 = (f k).isNone ∧
    (t.insert hash a k v).2.1 ∈ (t.insert hash a k v).1.nodes ∧ (t.insert hash a k v).2.1.key = k :=
  (h.resize (t.num + 1)).insertNoresize (resize_at h.good _ ha) k v

theorem Rep.insertSeq {hash : K → Nat} {fresh : List Nat → Nat} (hfr : ∀ l, fresh l ∉ l) (b : Bool) : ∀ (l : List (K × V)) {t : Table K V} {f : K → Option V}, Rep hash t f →
    Rep hash (t.insertSeq hash fresh b l) (addAll f l) := by
  intro l
  induction l with
  | nil => intro t f h; exact h
  | cons p l ih =>
    intro t f h
    unfold Table.insertSeq addAll
    rw [List.foldl_cons, List.foldl_cons]
    cases b with
    | true => exact ih ((h.insertNoresize (hfr _) p.1 p.2).1)
    | false => exact ih ((h.insert (hfr _) p.1 p.2).1)

/-- Elements are taken out: those with a key. -/
theorem Rep.remove {hash : K → Nat} {t u : Table K V} {f : K → Option V} (h : Rep hash t f) (hu : Good hash u) {k : K} (hs : (u.nodes.map Node.key).Nodup)
    (hm : ∀ x, x ∈ u.nodes ↔ x ∈ t.nodes ∧ x.key ≠ k) : Rep hash u (upd f k none) := by
  refine ⟨hu, hs, fun k' v' => ?_⟩
  simp only [hm, upd]
  constructor
  · rintro ⟨x, ⟨hx, hk⟩, rfl, rfl⟩
    rw [if_neg hk]; exact (h.same _ _).1 ⟨x, hx, rfl, rfl⟩
  · intro e
    split at e
    · cases e
    · rename_i hk
      obtain ⟨x, hx, e1, e2⟩ := (h.same _ _).2 e
      exact ⟨x, ⟨hx, by rw [e1]; exact hk⟩, e1, e2⟩

theorem Rep.filter_len {hash : K → Nat} {t : Table K V} {f : K → Option V} (h : Rep hash t f) (k : K) : (t.nodes.filter fun x => x.key = k).length = if f k = none then 0 else 1 := by
  split
  · rename_i hf
    rw [filter_nil_of ((h.none_iff k).1 hf)]; rfl
  · rename_i hf
    cases hv : f k with
    | none => exact absurd hv hf
    | some v =>
      obtain ⟨x, hx, hk, -⟩ := (h.same k v).2 hv
      have : (t.nodes.map Node.key).count k = 1 := List.count_eq_one_of_mem h.once (by rw [List.mem_map]; exact ⟨x, hx, hk⟩)
      rw [List.count, List.countP_map, List.countP_eq_length_filter] at this
      rw [← this]; congr 1

theorem Rep.step {hash : K → Nat} {fresh : List Nat → Nat} (hfr : ∀ l, fresh l ∉ l) (d : V) {t : Table K V} {f : K → Option V} (h : Rep hash t f) (op : Op K V) :
    ∃ t' o, step hash fresh d t op = some (t', o) ∧ Rep hash t' (after1 d f op) ∧ Answers d f op o := by
  cases op with
  | insert k v =>
    obtain ⟨h1, h2, h3, -, -⟩ := h.insert (hfr _) k v
    exact ⟨_, _, rfl, h1, by simp only [Answers]; rw [h2, h3]⟩
  | insertNoresize k v =>
    obtain ⟨h1, h2, h3, -, -⟩ := h.insertNoresize (hfr _) k v
    exact ⟨_, _, rfl, h1, by simp only [Answers]; rw [h2, h3]⟩
  | insertAll b l =>
    cases b with
    | true => exact ⟨_, _, rfl, (h.resize _).insertSeq hfr true l, rfl⟩
    | false => exact ⟨_, _, rfl, h.insertSeq hfr false l, rfl⟩
  | read k =>
    obtain ⟨h1, h2, -, -, -⟩ := h.insert (hfr _) k d
    refine ⟨_, _, rfl, ?_, ?_⟩
    · rw [index_eq]; exact h1
    · simp only [Answers]; rw [index_eq]; simp only [h2]
  | assign k v =>
    obtain ⟨h1, -, -, h4, h5⟩ := h.insert (hfr _) k d
    refine ⟨_, _, rfl, ?_, rfl⟩
    rw [index_eq]
    simp only
    generalize (t.insert hash (fresh (t.nodes.map Node.at_)) k d).1 = u at *
    generalize (t.insert hash (fresh (t.nodes.map Node.at_)) k d).2.1 = x at *
    obtain ⟨w1, w2⟩ := h1.good.write x.at_ v
    refine ⟨w1, ?_, ?_⟩
    · rw [w2, List.map_map]
      have : (u.nodes.map ((fun y : Node K V => y.key) ∘ fun y => if y.at_ = x.at_ then { y with val := v } else y)) = u.nodes.map Node.key := by
        apply List.map_congr_left; intro y _; simp only [Function.comp]; split <;> rfl
      exact this ▸ h1.once
    · intro k' v'
      rw [w2]
      simp only [List.mem_map, after1]
      have hat : ∀ y ∈ u.nodes, (y.at_ = x.at_ ↔ y.key = k) := by
        intro y hy
        constructor
        · intro e; rw [List.inj_on_of_nodup_map h1.good.apart hy h4 e, h5]
        · intro e; rw [h1.eq_of_key hy h4 (by rw [e, h5])]
      constructor
      · rintro ⟨z, ⟨y, hy, rfl⟩, rfl, rfl⟩
        unfold upd
        by_cases e : y.at_ = x.at_
        · have := (hat y hy).1 e
          simp [e, this]
        · have hk := mt (hat y hy).2 e
          simp only [e, if_false, hk]
          have := (h1.same y.key y.val).1 ⟨y, hy, rfl, rfl⟩
          simpa [upd, hk] using this
      · intro e
        unfold upd at e
        split at e
        · rename_i hk; cases e
          exact ⟨_, ⟨x, h4, rfl⟩, by simp [h5, hk], by simp⟩
        · rename_i hk
          obtain ⟨y, hy, e1, e2⟩ := (h1.same k' v').2 (by simpa [upd, hk] using e)
          refine ⟨_, ⟨y, hy, rfl⟩, ?_, ?_⟩
          · split <;> exact e1
          · rw [if_neg (by rw [hat y hy, e1]; exact hk)]; exact e2
  | find k => exact ⟨_, _, rfl, h, by simp only [Answers, h.find]⟩
  | count k =>
    refine ⟨_, _, rfl, h, ?_⟩
    simp only [Answers]
    unfold Table.count
    rw [← h.good.filter_chain, h.filter_len]
  | erase k =>
    obtain ⟨t', h1, h2, h3⟩ := h.good.eraseValue k
    refine ⟨t', .number (t.nodes.filter fun x => x.key = k).length, ?_, h.remove h2 ?_ ?_, ?_⟩
    · simp only [Hash.step, h1, Option.map_some]
    · rw [h3]; exact h.once.sublist (List.filter_sublist.map _)
    · intro x; rw [h3]; simp
    · simp only [Answers]; rw [h.filter_len]
  | eraseFound k =>
    have hf := h.good.find_eq k
    simp only [Hash.step]
    cases hc : t.find hash k with
    | none =>
      rw [hc] at hf
      refine ⟨t, .done, rfl, ?_, rfl⟩
      simp only [after1]
      rw [upd_self ((h.none_iff k).2 (notMem_of_find hf.symm))]; exact h
    | some x =>
      rw [hc] at hf
      have hx : x ∈ t.nodes := List.mem_of_find?_eq_some hf.symm
      have hk : x.key = k := by simpa using List.find?_some hf.symm
      obtain ⟨g1, g2⟩ := h.good.eraseAt hx
      have hn : ((x :: (t.eraseAt hash x).nodes).map Node.key).Nodup := ((g2.map Node.key).nodup_iff).2 h.once
      rw [List.map_cons, List.nodup_cons] at hn
      refine ⟨_, .done, rfl, h.remove g1 hn.2 ?_, rfl⟩
      intro y
      rw [← g2.mem_iff, List.mem_cons]
      constructor
      · intro hy
        exact ⟨.inr hy, fun e => hn.1 (List.mem_map.2 ⟨y, hy, by rw [e, hk]⟩)⟩
      · rintro ⟨rfl | hy, e⟩
        · exact absurd hk e
        · exact hy
  | clear =>
    obtain ⟨g1, g2⟩ := h.good.clear
    exact ⟨_, _, rfl, ⟨g1, by rw [g2]; simp, fun k v => by rw [g2]; simp [after1]⟩, rfl⟩
  | resize n => exact ⟨_, _, rfl, h.resize n, rfl⟩
  | size =>
    refine ⟨_, _, rfl, h, t.nodes.map Node.key, ⟨h.once, fun k => ?_⟩, by rw [h.good.size]; simp⟩
    rw [Ne, h.none_iff]
    simp
  | empty =>
    refine ⟨_, _, rfl, h, _, rfl, ?_⟩
    rw [h.good.size, decide_eq_true_iff, List.length_eq_zero_iff]
    constructor
    · intro e k; rw [h.none_iff, e]; simp
    · intro e
      cases hn : t.nodes with
      | nil => rfl
      | cons x l => exact absurd rfl ((h.none_iff x.key).1 (e _) x (by rw [hn]; simp))
  | elements =>
    refine ⟨_, _, rfl, h, _, rfl, ?_, ?_⟩
    · rw [h.good.walk, List.map_map]; exact h.once
    · intro k v
      rw [h.good.walk, ← h.same, List.mem_map]
      simp [pair, Prod.ext_iff]

theorem rep_init (hash : K → Nat) (n : Nat) : Rep hash (init n : Table K V) fun _ => none := by
  have hnil : (init n : Table K V).nodes = [] := by unfold Table.nodes init; simp
  exact ⟨good_init hash n, by rw [hnil]; simp, fun k v => by rw [hnil]; simp⟩

theorem Rep.run {hash : K → Nat} {fresh : List Nat → Nat} (hfr : ∀ l, fresh l ∉ l) (d : V) : ∀ (ops : List (Op K V)) (t : Table K V) (f : K → Option V), Rep hash t f →
    ∃ t' os g, run hash fresh d t ops = some (t', os) ∧ Follows d f ops g os ∧ Rep hash t' g := by
  intro ops
  induction ops with
  | nil => intro t f h; exact ⟨t, [], f, rfl, ⟨rfl, rfl⟩, h⟩
  | cons op ops ih =>
    intro t f h
    obtain ⟨t1, o, e1, h1, a1⟩ := h.step hfr d op
    obtain ⟨t2, os, g, e2, h2, h3⟩ := ih t1 _ h1
    exact ⟨t2, o :: os, g, by simp [Hash.run, e1, e2], ⟨o, os, rfl, a1, h2⟩, h3⟩

/-- C157: from a map with any number of buckets, any operations are carried out and every answer is that of a finite map; the map keeps to that state. -/
theorem C157_map (hash : K → Nat) (fresh : List Nat → Nat) (hfr : ∀ l, fresh l ∉ l) (d : V) (n : Nat) (ops : List (Op K V)) :
    ∃ t os f, run hash fresh d (init n) ops = some (t, os) ∧ Follows d (fun _ => none) ops f os ∧ ∀ k, (t.find hash k).map Node.val = f k := by
  obtain ⟨t, os, f, h1, h2, h3⟩ := (rep_init hash n).run hfr d ops
  exact ⟨t, os, f, h1, h2, h3.find⟩

theorem reached {hash : K → Nat} {fresh : List Nat → Nat} (hfr : ∀ l, fresh l ∉ l) {d : V} {n : Nat} {ops : List (Op K V)} {t : Table K V} {os : List (Out K V)}
    (h : run hash fresh d (init n) ops = some (t, os)) : ∃ f, Rep hash t f := by
  obtain ⟨t', os', f, h1, -, h3⟩ := (rep_init hash n).run hfr d ops
  rw [h] at h1; cases h1
  exact ⟨f, h3⟩

theorem Rep.copy {hash : K → Nat} {t : Table K V} {f : K → Option V} (h : Rep hash t f) {addr : Nat → Nat} (ha : ∀ a b, addr a = addr b → a = b) : Rep hash (t.copy addr) f := by
  have hn : (t.copy addr).nodes = t.nodes.map fun x => { x with at_ := addr x.at_ } := nodes_map _ _ _
  refine ⟨h.good.map (f := fun x => { x with at_ := addr x.at_ }) (fun _ => rfl) ?_, ?_, ?_⟩
  · have := h.good.apart.map (f := addr) (fun a b e => ha a b e)
    rwa [List.map_map] at this
  · rw [hn, List.map_map]; exact h.once
  · intro k v
    rw [hn, ← h.same]
    simp

/-- C157: operations on a copy have the answers they would have on the map it was copied from. -/
theorem C157_copy (hash : K → Nat) (fresh : List Nat → Nat) (hfr : ∀ l, fresh l ∉ l) (d : V) (n : Nat) (ops more : List (Op K V)) {t : Table K V} {os : List (Out K V)}
    (h : run hash fresh d (init n) ops = some (t, os)) {addr : Nat → Nat} (ha : ∀ a b, addr a = addr b → a = b) :
    ∃ t1 t2 os1 os2 f g, run hash fresh d t more = some (t1, os1) ∧ run hash fresh d (t.copy addr) more = some (t2, os2) ∧
      (∀ k, (t.find hash k).map Node.val = f k) ∧ (∀ k, ((t.copy addr).find hash k).map Node.val = f k) ∧ Follows d f more g os1 ∧ Follows d f more g os2 := by
  obtain ⟨f, hf⟩ := reached hfr h
  obtain ⟨t1, os1, g1, a1, a2, -⟩ := hf.run hfr d more
  obtain ⟨t2, os2, g2, b1, b2, -⟩ := (hf.copy ha).run hfr d more
  have hg : ∀ (ops : List (Op K V)) (f g1 g2 : K → Option V) os1 os2, Follows d f ops g1 os1 → Follows d f ops g2 os2 → g1 = g2 := by
    intro ops
    induction ops with
    | nil => rintro f g1 g2 os1 os2 ⟨e1, -⟩ ⟨e2, -⟩; rw [e1, e2]
    | cons op ops ih => rintro f g1 g2 os1 os2 ⟨_, _, _, _, e1⟩ ⟨_, _, _, _, e2⟩; exact ih _ _ _ _ _ e1 e2
  obtain rfl := hg _ _ _ _ _ _ a2 b2
  exact ⟨t1, t2, os1, os2, f, g1, a1, b1, hf.find, (hf.copy ha).find, a2, b2⟩

def freshNat (l : List Nat) : Nat := l.foldr (fun a m => max (a + 1) m) 0

theorem freshNat_spec (l : List Nat) : freshNat l ∉ l := by
  have : ∀ a ∈ l, a < freshNat l := by
    induction l with
    | nil => simp
    | cons b l ih =>
      intro a ha
      simp only [freshNat, List.foldr_cons] at ih ⊢
      rcases List.mem_cons.1 ha with rfl | ha
      · omega
      · have := ih a ha; omega
  intro h
  exact Nat.lt_irrefl _ (this _ h)

-- keys 3, 8 and 13 share a bucket, until there are more than five elements
example : (run (K := Nat) (V := Nat) id freshNat 0 (init 0)
    [.insert 3 30, .insert 8 80, .insert 3 31, .assign 13 1, .find 8, .eraseFound 8, .find 8, .count 3, .insertAll true [(1, 1), (2, 2), (3, 3), (4, 4)], .size, .read 13, .erase 3, .erase 3, .elements]).map
      (fun r => r.2.map fun o => match o with
        | .list l => l.map Prod.fst | .number n => [n] | .found v => v.toList | .value v => [v] | .inserted v b => [v, b.toNat] | _ => []) =
    some [[30, 1], [80, 1], [30, 0], [], [80], [], [], [1], [], [5], [1], [1], [0], [1, 2, 13, 4]] := by decide +kernel

/-! ### C158: elements stay where they are -/

/-- Operations that take the element with a key away. -/
def Removes (k : K) : Op K V → Prop
  | .erase k' | .eraseFound k' => k' = k
  | .clear => True
  | _ => False

def Writes (k : K) : Op K V → Prop
  | .assign k' _ => k' = k
  | _ => False

def Stays (x : Node K V) (t : Table K V) (w : Prop) : Prop := ∃ y ∈ t.nodes, y.at_ = x.at_ ∧ y.key = x.key ∧ (¬ w → y.val = x.val)

theorem Good.insert_mem {hash : K → Nat} {t : Table K V} (h : Good hash t) {a : Nat} (ha : a ∉ t.nodes.map Node.at_) (k : K) (v : V) {x : Node K V} (hx : x ∈ t.nodes) :
    x ∈ (t.insert hash a k v).1.nodes := by
  obtain ⟨-, ⟨_, _, _, e, _⟩ | ⟨_, e, _⟩⟩ := h.insert ha k v
  · exact (e.mem_iff).2 hx
  · exact (e.mem_iff).2 (List.mem_cons_of_mem _ hx)

theorem Good.insertNoresize_mem {hash : K → Nat} {t : Table K V} (h : Good hash t) {a : Nat} (ha : a ∉ t.nodes.map Node.at_) (k : K) (v : V) {x : Node K V} (hx : x ∈ t.nodes) :
    x ∈ (t.insertNoresize hash a k v).1.nodes := by
  obtain ⟨-, ⟨_, _, e⟩ | ⟨_, e, _⟩⟩ := h.insertNoresize ha k v
  · rw [e]; exact hx
  · exact (e.mem_iff).2 (List.mem_cons_of_mem _ hx)

theorem insertSeq_mem {hash : K → Nat} {fresh : List Nat → Nat} (hfr : ∀ l, fresh l ∉ l) (b : Bool) {x : Node K V} : ∀ (l : List (K × V)) {t : Table K V}, Good hash t → x ∈ t.nodes →
    x ∈ (t.insertSeq hash fresh b l).nodes := by
  intro l
  induction l with
  | nil => intro t _ hx; exact hx
  | cons p l ih =>
    intro t h hx
    unfold Table.insertSeq
    rw [List.foldl_cons]
    cases b with
    | true => exact ih (h.insertNoresize (hfr _) p.1 p.2).1 (h.insertNoresize_mem (hfr _) _ _ hx)
    | false => exact ih (h.insert (hfr _) p.1 p.2).1 (h.insert_mem (hfr _) _ _ hx)

theorem step_stays {hash : K → Nat} {fresh : List Nat → Nat} (hfr : ∀ l, fresh l ∉ l) {d : V} {t t' : Table K V} {f : K → Option V} (h : Rep hash t f) {op : Op K V} {o : Out K V}
    (hs : step hash fresh d t op = some (t', o)) {x : Node K V} (hx : x ∈ t.nodes) (hr : ¬ Removes x.key op) : Stays x t' (Writes x.key op) := by
  have mem : ∀ u : Table K V, x ∈ u.nodes → ∀ w, Stays x u w := fun u hu w => ⟨x, hu, rfl, rfl, fun _ => rfl⟩
  cases op with
  | insert k v => simp only [step, Option.some.injEq, Prod.mk.injEq] at hs; rw [← hs.1]; exact mem _ (h.good.insert_mem (hfr _) _ _ hx) _
  | insertNoresize k v => simp only [step, Option.some.injEq, Prod.mk.injEq] at hs; rw [← hs.1]; exact mem _ (h.good.insertNoresize_mem (hfr _) _ _ hx) _
  | insertAll b l =>
    cases b with
    | true =>
      simp only [step, Option.some.injEq, Prod.mk.injEq] at hs; rw [← hs.1]
      obtain ⟨g1, g2⟩ := h.good.resize (t.num + l.length)
      exact mem _ (insertSeq_mem hfr true l g1 ((g2.mem_iff).2 hx)) _
    | false => simp only [step, Option.some.injEq, Prod.mk.injEq] at hs; rw [← hs.1]; exact mem _ (insertSeq_mem hfr false l h.good hx) _
  | read k =>
    simp only [step, Option.some.injEq, Prod.mk.injEq, index_eq] at hs; rw [← hs.1]
    exact mem _ (h.good.insert_mem (hfr _) _ _ hx) _
  | assign k v =>
    simp only [step, Option.some.injEq, Prod.mk.injEq, index_eq] at hs; rw [← hs.1]
    obtain ⟨h1, -, -, h4, h5⟩ := h.insert (hfr _) k d
    have hx' := h.good.insert_mem (hfr _) k d hx
    rw [Stays, (h1.good.write _ v).2]
    refine ⟨_, List.mem_map.2 ⟨x, hx', rfl⟩, ?_, ?_, ?_⟩
    · split <;> rfl
    · split <;> rfl
    · intro hw
      rw [if_neg]
      intro e
      have := List.inj_on_of_nodup_map h1.good.apart hx' h4 e
      exact hw (by rw [this, h5]; exact rfl)
  | find k => simp only [step, Option.some.injEq, Prod.mk.injEq] at hs; rw [← hs.1]; exact mem _ hx _
  | count k => simp only [step, Option.some.injEq, Prod.mk.injEq] at hs; rw [← hs.1]; exact mem _ hx _
  | erase k =>
    obtain ⟨u, h1, -, h3⟩ := h.good.eraseValue k
    simp only [step, h1, Option.map_some, Option.some.injEq, Prod.mk.injEq] at hs
    rw [← hs.1]
    exact mem _ (by rw [h3]; simpa using ⟨hx, fun e => hr e.symm⟩) _
  | eraseFound k =>
    simp only [step] at hs
    have hf := h.good.find_eq k
    cases hc : t.find hash k with
    | none => rw [hc] at hs; simp only [Option.some.injEq, Prod.mk.injEq] at hs; rw [← hs.1]; exact mem _ hx _
    | some y =>
      rw [hc] at hs hf; simp only [Option.some.injEq, Prod.mk.injEq] at hs; rw [← hs.1]
      have hy : y ∈ t.nodes := List.mem_of_find?_eq_some hf.symm
      have hk : y.key = k := by simpa using List.find?_some hf.symm
      have := (h.good.eraseAt hy).2
      rcases List.mem_cons.1 ((this.mem_iff).2 hx) with rfl | hx
      · exact absurd hk.symm hr
      · exact mem _ hx _
  | clear => exact absurd trivial hr
  | resize n => simp only [step, Option.some.injEq, Prod.mk.injEq] at hs; rw [← hs.1]; exact mem _ (((h.good.resize n).2.mem_iff).2 hx) _
  | size => simp only [step, Option.some.injEq, Prod.mk.injEq] at hs; rw [← hs.1]; exact mem _ hx _
  | empty => simp only [step, Option.some.injEq, Prod.mk.injEq] at hs; rw [← hs.1]; exact mem _ hx _
  | elements => simp only [step, Option.some.injEq, Prod.mk.injEq] at hs; rw [← hs.1]; exact mem _ hx _

/-- C158: an element stays at its address, with its key, through any operations that do not remove its key, however many elements come and go and however often room is made;
    its value changes only if it is assigned. -/
theorem C158_stays (hash : K → Nat) (fresh : List Nat → Nat) (hfr : ∀ l, fresh l ∉ l) (d : V) (n : Nat) (ops more : List (Op K V)) {t t' : Table K V} {os os' : List (Out K V)}
    (h : run hash fresh d (init n) ops = some (t, os)) (h' : run hash fresh d t more = some (t', os')) {x : Node K V} {k : K} (hx : t.find hash k = some x)
    (hr : ∀ op ∈ more, ¬ Removes k op) :
    ∃ y, t'.find hash k = some y ∧ y.at_ = x.at_ ∧ ((∀ op ∈ more, ¬ Writes k op) → y.val = x.val) := by
  obtain ⟨f, hf⟩ := reached hfr h
  have hfind : ∀ {t : Table K V} {f : K → Option V}, Rep hash t f → ∀ x, t.find hash k = some x ↔ x ∈ t.nodes ∧ x.key = k := by
    intro t f hf x
    rw [hf.good.find_eq]
    constructor
    · intro e; exact ⟨List.mem_of_find?_eq_some e, by simpa using List.find?_some e⟩
    · rintro ⟨hx, hk⟩
      cases hc : t.nodes.find? fun x => x.key = k with
      | none => exact absurd hk (notMem_of_find hc x hx)
      | some y =>
        have hy : y.key = k := by simpa using List.find?_some hc
        rw [hf.eq_of_key (List.mem_of_find?_eq_some hc) hx (by rw [hy, hk])]
  have key : ∀ (more : List (Op K V)) (t t' : Table K V) (f : K → Option V) (os' : List (Out K V)) (x : Node K V), Rep hash t f → run hash fresh d t more = some (t', os') → x ∈ t.nodes → x.key = k →
      (∀ op ∈ more, ¬ Removes k op) → ∃ y f', Rep hash t' f' ∧ y ∈ t'.nodes ∧ y.key = k ∧ y.at_ = x.at_ ∧ ((∀ op ∈ more, ¬ Writes k op) → y.val = x.val) := by
    intro more
    induction more with
    | nil =>
      intro t t' f os' x h e hx hk _
      simp only [run, Option.some.injEq, Prod.mk.injEq] at e
      obtain ⟨rfl, -⟩ := e
      exact ⟨x, f, h, hx, hk, rfl, fun _ => rfl⟩
    | cons op more ih =>
      intro t t' f os' x h e hx hk hr
      obtain ⟨t1, o, e1, h1, -⟩ := h.step hfr d op
      simp only [run, e1, Option.map_eq_some_iff] at e
      obtain ⟨⟨t2, os2⟩, e2, e3⟩ := e
      simp only [Prod.mk.injEq] at e3
      obtain ⟨rfl, -⟩ := e3
      obtain ⟨y, hy, y1, y2, y3⟩ := step_stays hfr h e1 hx (by rw [hk]; exact hr op List.mem_cons_self)
      obtain ⟨z, f', z1, z2, z3, z4, z5⟩ := ih t1 t2 _ os2 y h1 e2 hy (by rw [y2, hk]) (fun op ho => hr op (List.mem_cons_of_mem _ ho))
      refine ⟨z, f', z1, z2, z3, by rw [z4, y1], fun hw => ?_⟩
      rw [z5 fun op ho => hw op (List.mem_cons_of_mem _ ho)]
      exact y3 (by rw [hk]; exact hw op List.mem_cons_self)
  obtain ⟨hx1, hx2⟩ := (hfind hf x).1 hx
  obtain ⟨y, f', y1, y2, y3, y4, y5⟩ := key more t t' f os' x hf h' hx1 hx2 hr
  exact ⟨y, (hfind y1 y).2 ⟨y2, y3⟩, y4, y5⟩

-- the element of key 3 keeps its address while the table grows from 5 to 11 buckets
example : ((run (K := Nat) (V := Nat) id freshNat 0 (init 0) [.insert 3 30, .insert 8 80]).bind fun r => r.1.find id 3) = some ⟨0, 3, 30⟩ ∧
    ((run (K := Nat) (V := Nat) id freshNat 0 (init 0) [.insert 3 30, .insert 8 80, .erase 8, .insertAll false [(1, 1), (2, 2), (4, 4), (5, 5), (6, 6)], .assign 3 7]).bind fun r => r.1.find id 3) =
      some ⟨0, 3, 7⟩ ∧
    ((run (K := Nat) (V := Nat) id freshNat 0 (init 0) [.insert 3 30, .insert 8 80, .erase 8, .insertAll false [(1, 1), (2, 2), (4, 4), (5, 5), (6, 6)], .assign 3 7]).map fun r => r.1.buckets.length) =
      some 11 := by decide +kernel

/-! ### C159: erasing by a key that is part of the map -/

theorem eraseLoop_none {a : Nat} {k : K} : ∀ c : List (Node K V), (∀ x ∈ c, x.key ≠ k) → eraseLoop (.ofNode a k) false c = some (c, 0, false) := by
  intro c
  induction c with
  | nil => intro _; rfl
  | cons y c ih =>
    intro h
    rw [eraseLoop]
    simp only [Bool.false_eq_true, ↓reduceIte, KeyRef.key, h y List.mem_cons_self, ih fun x hx => h x (List.mem_cons_of_mem _ hx), Option.map_some]

theorem eraseLoop_gone {a : Nat} {k : K} : ∀ c : List (Node K V), (∃ x ∈ c, x.key = k ∧ x.at_ = a) → (∀ x ∈ c, x.key = k → x.at_ = a) →
    ∀ r, eraseLoop (.ofNode a k) false c = some r → r.2.2 = true := by
  intro c
  induction c with
  | nil => rintro ⟨x, hx, -⟩; cases hx
  | cons y c ih =>
    rintro ⟨x, hx, hk, ha⟩ hu r hr
    rw [eraseLoop] at hr
    by_cases hy : y.key = k
    · have hya := hu y List.mem_cons_self hy
      simp only [Bool.false_eq_true, ↓reduceIte, KeyRef.key, KeyRef.isAt, hy, hya, decide_true, Option.map_eq_some_iff] at hr
      obtain ⟨q, h1, rfl⟩ := hr
      cases c with
      | nil => simp only [eraseLoop, Option.some.injEq] at h1; rw [← h1]
      | cons z c => simp [eraseLoop] at h1
    · simp only [Bool.false_eq_true, ↓reduceIte, KeyRef.key, hy, Option.map_eq_some_iff] at hr
      obtain ⟨q, h1, rfl⟩ := hr
      refine ih ?_ (fun x hx => hu x (List.mem_cons_of_mem _ hx)) q h1
      rcases List.mem_cons.1 hx with rfl | hx
      · exact absurd hk hy
      · exact ⟨x, hx, hk, ha⟩

/-- C159: `m.erase(it->first)` reads the key after the element it belongs to is deleted, exactly if the element is not the first of its bucket. -/
theorem C159_exact (hash : K → Nat) (fresh : List Nat → Nat) (hfr : ∀ l, fresh l ∉ l) (d : V) (n : Nat) (ops : List (Op K V)) {t : Table K V} {os : List (Out K V)}
    (h : run hash fresh d (init n) ops = some (t, os)) {x : Node K V} {k : K} (hx : t.find hash k = some x) :
    t.eraseKey hash (.ofNode x.at_ x.key) = none ↔ (t.chain (t.bkt hash k)).head? ≠ some x := by
  obtain ⟨f, hf⟩ := reached hfr h
  have hfe := hf.good.find_eq k
  rw [hx] at hfe
  have hm : x ∈ t.nodes := List.mem_of_find?_eq_some hfe.symm
  have hk : x.key = k := by simpa using List.find?_some hfe.symm
  have hc := (hf.good.mem_chain hk).1 hm
  have huniq : ∀ y ∈ t.chain (t.bkt hash k), y.key = k → y = x := fun y hy e => hf.eq_of_key ((hf.good.mem_chain e).2 hy) hm (by rw [e, hk])
  have hap : ((t.chain (t.bkt hash k)).map Node.at_).Nodup := by
    obtain ⟨a, c, h1, -⟩ := hf.good.split k
    have := hf.good.apart
    rw [nodes_split h1] at this
    exact this.sublist (((List.sublist_append_left _ _).trans (List.sublist_append_right _ _)).map _)
  unfold Table.eraseKey
  simp only [KeyRef.key, hk]
  cases hch : t.chain (t.bkt hash k) with
  | nil => rw [hch] at hc; cases hc
  | cons y c =>
    rw [hch] at hc huniq hap
    simp only [List.head?_cons, ne_eq, Option.some.injEq]
    by_cases hyx : y = x
    · subst hyx
      have hnone : ∀ z ∈ c, z.key ≠ k := by
        intro z hz e
        have := huniq z (List.mem_cons_of_mem _ hz) e
        subst this
        rw [List.map_cons, List.nodup_cons] at hap
        exact hap.1 (List.mem_map_of_mem hz)
      rw [eraseLoop_none c hnone]
      simp [hk]
    · have hxc : x ∈ c := by
        rcases List.mem_cons.1 hc with e | e
        · exact absurd e.symm hyx
        · exact e
      simp only [hyx, not_false_eq_true, iff_true]
      cases hl : eraseLoop (KeyRef.ofNode x.at_ k) false c with
      | none => rfl
      | some r =>
        have := eraseLoop_gone c ⟨x, hxc, hk, rfl⟩ (fun z hz e => by rw [huniq z (List.mem_cons_of_mem _ hz) e]) r hl
        obtain ⟨r1, r2, r3⟩ := r
        simp only at this
        simp [this]

/-- C159 refuted: a map with two elements in a bucket; the key of the one inserted first is passed by reference. -/
theorem C159_refuted : ∃ (ops : List (Op Nat Nat)) (t : Table Nat Nat) (os : List (Out Nat Nat)) (x : Node Nat Nat), run id freshNat 0 (init 0) ops = some (t, os) ∧
    t.find id 0 = some x ∧ t.eraseKey id (.ofNode x.at_ x.key) = none :=
  ⟨[.insert 0 0, .insert 5 0], ⟨[[⟨1, 5, 0⟩, ⟨0, 0, 0⟩], [], [], [], []], 2⟩, [.inserted 0 true, .inserted 0 true], ⟨0, 0, 0⟩, by
    refine ⟨?_, by decide +kernel, by decide +kernel⟩
    have h0 : (init 0 : Table Nat Nat) = ⟨[[], [], [], [], []], 0⟩ := by decide +kernel
    rw [h0]
    have e1 : step id freshNat 0 (⟨[[], [], [], [], []], 0⟩ : Table Nat Nat) (.insert 0 0) = some (⟨[[⟨0, 0, 0⟩], [], [], [], []], 1⟩, .inserted 0 true) := rfl
    have e2 : step id freshNat 0 (⟨[[⟨0, 0, 0⟩], [], [], [], []], 1⟩ : Table Nat Nat) (.insert 5 0) = some (⟨[[⟨1, 5, 0⟩, ⟨0, 0, 0⟩], [], [], [], []], 2⟩, .inserted 0 true) := rfl
    simp only [run, e1, e2, Option.map_some]⟩

/-- C159, the part that holds: a key that is the first of its bucket (so in particular one that is alone there) can be passed by reference; the element is erased and the others stay. -/
theorem C159_first_partial (hash : K → Nat) (fresh : List Nat → Nat) (hfr : ∀ l, fresh l ∉ l) (d : V) (n : Nat) (ops : List (Op K V)) {t : Table K V} {os : List (Out K V)}
    (h : run hash fresh d (init n) ops = some (t, os)) {x : Node K V} {k : K} (hx : t.find hash k = some x) (hfirst : (t.chain (t.bkt hash k)).head? = some x) :
    ∃ t', t.eraseKey hash (.ofNode x.at_ x.key) = some (t', 1) ∧ t'.find hash k = none ∧ ∀ k', k' ≠ k → t'.find hash k' = t.find hash k' := by
  obtain ⟨f, hf⟩ := reached hfr h
  have hfe := hf.good.find_eq k
  rw [hx] at hfe
  have hm : x ∈ t.nodes := List.mem_of_find?_eq_some hfe.symm
  have hk : x.key = k := by simpa using List.find?_some hfe.symm
  have huniq : ∀ y ∈ t.chain (t.bkt hash k), y.key = k → y = x := fun y hy e => hf.eq_of_key ((hf.good.mem_chain e).2 hy) hm (by rw [e, hk])
  have hap : ((t.chain (t.bkt hash k)).map Node.at_).Nodup := by
    obtain ⟨a, c, h1, -⟩ := hf.good.split k
    have := hf.good.apart
    rw [nodes_split h1] at this
    exact this.sublist (((List.sublist_append_left _ _).trans (List.sublist_append_right _ _)).map _)
  -- the same result as with a key of its own
  have hval : t.eraseKey hash (.ofNode x.at_ x.key) = t.eraseKey hash (.value k) := by
    unfold Table.eraseKey
    simp only [KeyRef.key, hk]
    cases hch : t.chain (t.bkt hash k) with
    | nil => rfl
    | cons y c =>
      rw [hch] at hfirst huniq hap
      simp only [List.head?_cons, Option.some.injEq] at hfirst
      subst hfirst
      have hnone : ∀ z ∈ c, z.key ≠ k := by
        intro z hz e
        have := huniq z (List.mem_cons_of_mem _ hz) e
        subst this
        rw [List.map_cons, List.nodup_cons] at hap
        exact hap.1 (List.mem_map_of_mem hz)
      simp only [eraseLoop_none c hnone, eraseLoop_value, filter_nil_of hnone, filter_self_of hnone, List.length_nil]
      rfl
  obtain ⟨t', h1, h2, h3⟩ := hf.good.eraseValue k
  have hne : f k ≠ none := by rw [← hf.find, hx]; simp
  refine ⟨t', by rw [hval, h1, hf.filter_len, if_neg hne], ?_, ?_⟩
  · rw [h2.find_eq, h3, List.find?_eq_none]; simp
  · intro k' hk'
    rw [h2.find_eq, h3, hf.good.find_eq, List.find?_filter]
    congr 1; funext y
    by_cases e : y.key = k' <;> simp [e, hk']

-- the hypotheses are met by a map with two elements in a bucket and the one inserted last
example : (run (K := Nat) (V := Nat) id freshNat 0 (init 0) [.insert 3 30, .insert 8 80]).map (fun r => (r.1.find id 8, (r.1.chain (r.1.bkt id 8)).head?)) = some (some ⟨1, 8, 80⟩, some ⟨1, 8, 80⟩) := by
  decide +kernel

/-! ### C160: equality -/

/-- C160, the part that holds: maps that compare equal have the same elements, and a copy compares equal. -/
theorem C160_equal_partial [DecidableEq V] (hash : K → Nat) (fresh : List Nat → Nat) (hfr : ∀ l, fresh l ∉ l) (d : V) (n m : Nat) (ops more : List (Op K V)) {t u : Table K V} {os os' : List (Out K V)}
    (h : run hash fresh d (init n) ops = some (t, os)) (h' : run hash fresh d (init m) more = some (u, os')) :
    (t.eq u = true → ∀ k, (t.find hash k).map Node.val = (u.find hash k).map Node.val) ∧ ∀ addr, t.eq (t.copy addr) = true := by
  obtain ⟨f, hf⟩ := reached hfr h
  obtain ⟨g, hg⟩ := reached hfr h'
  constructor
  · intro he k
    rw [hf.find, hg.find]
    unfold Table.eq at he
    rw [decide_eq_true_iff] at he
    have he' := congrArg List.flatten he
    rw [← List.map_flatten, ← List.map_flatten] at he'
    have hiff : ∀ v, f k = some v ↔ g k = some v := by
      have hmem : ∀ {t : Table K V} {f : K → Option V}, Rep hash t f → ∀ v, f k = some v ↔ (k, v) ∈ t.buckets.flatten.map fun x => (x.key, x.val) := by
        intro t f hf v
        rw [← hf.same, List.mem_map]
        simp [Table.nodes]
      intro v
      rw [hmem hf, hmem hg, he']
    cases hfk : f k with
    | none =>
      cases hgk : g k with
      | none => rfl
      | some v => rw [(hiff v).2 hgk] at hfk; cases hfk
    | some v => rw [(hiff v).1 hfk]
  · intro addr
    unfold Table.eq Table.copy
    rw [decide_eq_true_iff]
    simp only [List.map_map]
    apply List.map_congr_left
    intro c _
    simp only [Function.comp, List.map_map]
    rfl

/-- C160 refuted: two maps with the same elements, inserted in another order, or with another number of buckets, compare unequal. -/
theorem C160_refuted : ∃ (ops ops' : List (Op Nat Nat)) (t u w : Table Nat Nat) (o1 o2 o3 : List (Out Nat Nat)), run id freshNat 0 (init 0) ops = some (t, o1) ∧ run id freshNat 0 (init 0) ops' = some (u, o2) ∧
    run id freshNat 0 (init 10) ops = some (w, o3) ∧ (∀ k, (t.find id k).map Node.val = (u.find id k).map Node.val) ∧ (∀ k, (t.find id k).map Node.val = (w.find id k).map Node.val) ∧
    t.eq u = false ∧ t.eq w = false := by
  obtain ⟨t, o1, f, h1, h2, h3⟩ := C157_map (K := Nat) (V := Nat) id freshNat freshNat_spec 0 0 [.insert 0 0, .insert 5 0]
  obtain ⟨u, o2, g, g1, g2, g3⟩ := C157_map (K := Nat) (V := Nat) id freshNat freshNat_spec 0 0 [.insert 5 0, .insert 0 0]
  obtain ⟨w, o3, e, e1, e2, e3⟩ := C157_map (K := Nat) (V := Nat) id freshNat freshNat_spec 0 10 [.insert 0 0, .insert 5 0]
  refine ⟨_, _, t, u, w, o1, o2, o3, h1, g1, e1, ?_, ?_, ?_, ?_⟩
  · intro k
    rw [h3, g3]
    obtain ⟨_, _, -, -, _, _, -, -, rfl, -⟩ := h2
    obtain ⟨_, _, -, -, _, _, -, -, rfl, -⟩ := g2
    simp only [after1, upd]
    by_cases h0 : k = 0 <;> by_cases h5 : k = 5 <;> simp [h0, h5]
  · intro k
    rw [h3, e3]
    obtain ⟨_, _, -, -, _, _, -, -, rfl, -⟩ := h2
    obtain ⟨_, _, -, -, _, _, -, -, rfl, -⟩ := e2
    rfl
  · have : (run (K := Nat) (V := Nat) id freshNat 0 (init 0) [.insert 0 0, .insert 5 0]).bind (fun a => (run (K := Nat) (V := Nat) id freshNat 0 (init 0) [.insert 5 0, .insert 0 0]).map fun b => a.1.eq b.1) = some false := by decide +kernel
    rw [h1, g1] at this
    simpa using this
  · have : (run (K := Nat) (V := Nat) id freshNat 0 (init 0) [.insert 0 0, .insert 5 0]).bind (fun a => (run (K := Nat) (V := Nat) id freshNat 0 (init 10) [.insert 0 0, .insert 5 0]).map fun b => a.1.eq b.1) = some false := by decide +kernel
    rw [h1, e1] at this
    simpa using this

end Vital.Hash
