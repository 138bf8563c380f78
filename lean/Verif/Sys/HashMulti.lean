import Verif.Sys.HashMap
/-
  Model of the parts of vital/kwiversys/hashtable.hxx.in that hash_multimap and hash_multiset use, and of erasing a range; properties C161 (hash_multimap and hash_multiset
  are multisets of pairs, and the elements with a key are next to each other), C162 (erasing a range).
-/
namespace Vital.Hash

variable {K V : Type} [DecidableEq K]

/-- A node is put after the first one with its key. -/
-- models: vital/kwiversys/hashtable.hxx.in:692-700
def insAfter (n : Node K V) : List (Node K V) → List (Node K V)
  | [] => []
  | x :: c => if x.key = n.key then x :: n :: c else x :: insAfter n c

-- models: vital/kwiversys/hashtable.hxx.in:683-711 (insert_equal_noresize)
def Table.insertEqualNoresize (hash : K → Nat) (t : Table K V) (a : Nat) (k : K) (v : V) : Table K V × Node K V :=
  if ∃ x ∈ t.chain (t.bkt hash k), x.key = k then (⟨t.buckets.set (t.bkt hash k) (insAfter ⟨a, k, v⟩ (t.chain (t.bkt hash k))), t.num + 1⟩, ⟨a, k, v⟩)
  else (⟨t.buckets.set (t.bkt hash k) (⟨a, k, v⟩ :: t.chain (t.bkt hash k)), t.num + 1⟩, ⟨a, k, v⟩)

-- models: vital/kwiversys/hashtable.hxx.in:386-390 (insert_equal)
def Table.insertEqual (hash : K → Nat) (t : Table K V) (a : Nat) (k : K) (v : V) : Table K V × Node K V := (t.resize hash (t.num + 1)).insertEqualNoresize hash a k v

-- models: vital/kwiversys/hashtable.hxx.in:733-785 (equal_range)
def Table.equalRange (hash : K → Nat) (t : Table K V) (k : K) : Option (Node K V) × Option (Node K V) :=
  match (t.chain (t.bkt hash k)).dropWhile fun x => x.key ≠ k with
  | [] => (none, none)
  | x :: c => (some x, match c.dropWhile fun x => x.key = k with
    | y :: _ => some y
    | [] => firstOf (t.buckets.drop (t.bkt hash k + 1)))

/-- The elements a loop from one iterator to another visits (the loop ends at `end()` here if it does not meet the other iterator). -/
def Table.walkTo (hash : K → Nat) (t : Table K V) (stop : Option (Node K V)) : Nat → Option (Node K V) → List (Node K V)
  | 0, _ => []
  | _, none => []
  | n + 1, some x => if stop.map Node.at_ = some x.at_ then [] else x :: t.walkTo hash stop n (t.next hash x)

/-- A chain replaced by what is left of it. -/
def Table.setChain (t : Table K V) (n : Nat) (d : List (Node K V)) : Table K V := ⟨t.buckets.set n d, t.num - ((t.chain n).length - d.length)⟩

-- models: vital/kwiversys/hashtable.hxx.in:940-952 (_M_erase_bucket to a node, or to the end)
def Table.eraseTo (t : Table K V) (n : Nat) (last : Option Nat) : Table K V := t.setChain n ((t.chain n).dropWhile fun x => some x.at_ ≠ last)

-- models: vital/kwiversys/hashtable.hxx.in:919-938 (_M_erase_bucket from a node to a node, or to the end)
def Table.eraseFrom (t : Table K V) (n first : Nat) (last : Option Nat) : Table K V :=
  if (t.chain n).head?.map Node.at_ = some first then t.eraseTo n last
  else t.setChain n ((t.chain n).takeWhile (fun x => x.at_ ≠ first) ++ ((t.chain n).dropWhile fun x => x.at_ ≠ first).dropWhile fun x => some x.at_ ≠ last)

/-- `none` is `end()`. Erasing from `end()` to an element is outside the contract; nothing is done here. -/
-- models: vital/kwiversys/hashtable.hxx.in:849-874 (erase of a range)
def Table.eraseRange (hash : K → Nat) (t : Table K V) (first last : Option (Node K V)) : Table K V :=
  let fb := first.elim t.buckets.length fun x => t.bkt hash x.key
  let lb := last.elim t.buckets.length fun x => t.bkt hash x.key
  if first.map Node.at_ = last.map Node.at_ then t
  else match first with
    | none => t
    | some x =>
      if fb = lb then t.eraseFrom fb x.at_ (last.map Node.at_)
      else
        let t2 := (List.range' (fb + 1) (lb - (fb + 1))).foldl (fun t n => t.eraseTo n none) (t.eraseFrom fb x.at_ none)
        if lb ≠ t.buckets.length then t2.eraseTo lb (last.map Node.at_) else t2

/-! ### Erasing a range -/

theorem Good.setChain {hash : K → Nat} {t : Table K V} (h : Good hash t) (n : Nat) {d : List (Node K V)} (hd : d.Sublist (t.chain n)) : Good hash (t.setChain n d) := by
  unfold Table.setChain
  by_cases hn : n < t.buckets.length
  · obtain ⟨a, b, c, h1, h2, h3, h4⟩ := split_at hn
    have hb : t.chain n = b := by unfold Table.chain; rw [h3]; rfl
    rw [hb] at hd ⊢
    have hnodes : (⟨t.buckets.set n d, t.num - (b.length - d.length)⟩ : Table K V).nodes = a.flatten ++ (d ++ c.flatten) := nodes_split (h4 d)
    refine ⟨by simpa using h.some_bucket, ?_, ?_, ?_⟩
    · have := hd.length_le
      rw [hnodes, h.size, nodes_split h1]
      simp only [List.length_append]; omega
    · intro i e he x hx
      simp only [List.length_set]
      rw [List.getElem?_set] at he
      split at he
      · rename_i hi
        simp only [hi ▸ hn, ↓reduceIte, Option.some.injEq] at he
        rw [← hi]
        exact h.place n b h3 x (hd.subset (by rw [he]; exact hx))
      · exact h.place i e he x hx
    · rw [hnodes]
      have := h.apart
      rw [nodes_split h1] at this
      exact this.sublist (((List.Sublist.refl _).append (hd.append (List.Sublist.refl _))).map _)
  · have hc : t.chain n = [] := by unfold Table.chain; rw [List.getElem?_eq_none (by omega)]; rfl
    rw [hc] at hd ⊢
    rw [List.sublist_nil.1 hd, List.set_eq_of_length_le (by omega)]
    exact h

theorem Good.eraseTo {hash : K → Nat} {t : Table K V} (h : Good hash t) (n : Nat) (last : Option Nat) : Good hash (t.eraseTo n last) := h.setChain n (List.dropWhile_sublist _)

theorem Good.eraseFrom {hash : K → Nat} {t : Table K V} (h : Good hash t) (n first : Nat) (last : Option Nat) : Good hash (t.eraseFrom n first last) := by
  unfold Table.eraseFrom
  split
  · exact h.eraseTo n last
  · refine h.setChain n ?_
    conv => rhs; rw [← List.takeWhile_append_dropWhile (p := fun x => decide (x.at_ ≠ first)) (l := t.chain n)]
    exact (List.Sublist.refl _).append (List.dropWhile_sublist _)

theorem chain_of {t : Table K V} {a c : List (List (Node K V))} {b : List (Node K V)} (h : t.buckets = a ++ b :: c) : t.chain a.length = b := by
  unfold Table.chain; rw [h]; simp

theorem setChain_buckets {t : Table K V} {a c : List (List (Node K V))} {b : List (Node K V)} (h : t.buckets = a ++ b :: c) (d : List (Node K V)) :
    (t.setChain a.length d).buckets = a ++ d :: c := by
  unfold Table.setChain; rw [h]; simp

theorem dropWhile_at {a : Nat} {l m : List (Node K V)} {x : Node K V} (hl : ∀ y ∈ l, y.at_ ≠ a) (hx : x.at_ = a) :
    ((l ++ x :: m).dropWhile fun y => y.at_ ≠ a) = x :: m ∧ ((l ++ x :: m).takeWhile fun y => y.at_ ≠ a) = l := by
  constructor
  · rw [List.dropWhile_append_of_pos (by intro y hy; simpa using hl y hy)]
    rw [List.dropWhile_cons_of_neg (by simpa using hx)]
  · rw [List.takeWhile_append_of_pos (by intro y hy; simpa using hl y hy)]
    rw [List.takeWhile_cons_of_neg (by simpa using hx)]; simp

theorem dropWhile_some {a : Nat} (l : List (Node K V)) : (l.dropWhile fun y => some y.at_ ≠ some a) = l.dropWhile fun y => y.at_ ≠ a := by
  congr 1; funext y; simp

theorem dropWhile_none (l : List (Node K V)) : (l.dropWhile fun y => some y.at_ ≠ none) = [] := by
  induction l with
  | nil => rfl
  | cons y l ih => rw [List.dropWhile_cons_of_pos (by simp), ih]

theorem eraseTo_buckets {t : Table K V} {a c : List (List (Node K V))} {m1 m2 : List (Node K V)} {y : Node K V} (h : t.buckets = a ++ (m1 ++ y :: m2) :: c) (hm : ∀ z ∈ m1, z.at_ ≠ y.at_) :
    (t.eraseTo a.length (some y.at_)).buckets = a ++ (y :: m2) :: c := by
  unfold Table.eraseTo
  rw [chain_of h, setChain_buckets h, dropWhile_some, (dropWhile_at hm rfl).1]

theorem eraseTo_none_buckets {t : Table K V} {a c : List (List (Node K V))} {b : List (Node K V)} (h : t.buckets = a ++ b :: c) : (t.eraseTo a.length none).buckets = a ++ [] :: c := by
  unfold Table.eraseTo
  rw [chain_of h, setChain_buckets h, dropWhile_none]

theorem eraseFrom_none_buckets {t : Table K V} {a c : List (List (Node K V))} {b1 b2 : List (Node K V)} {x : Node K V} (h : t.buckets = a ++ (b1 ++ x :: b2) :: c) (hb : ∀ z ∈ b1, z.at_ ≠ x.at_) :
    (t.eraseFrom a.length x.at_ none).buckets = a ++ b1 :: c := by
  unfold Table.eraseFrom
  rw [chain_of h]
  split
  · rename_i hh
    cases b1 with
    | nil => exact eraseTo_none_buckets h
    | cons z b1 => simp at hh; exact absurd hh (hb z List.mem_cons_self)
  · rw [setChain_buckets h, (dropWhile_at hb rfl).1, (dropWhile_at hb rfl).2, dropWhile_none]; simp

theorem eraseFrom_buckets {t : Table K V} {a c : List (List (Node K V))} {b1 m1 m2 : List (Node K V)} {x y : Node K V} (h : t.buckets = a ++ (b1 ++ x :: (m1 ++ y :: m2)) :: c)
    (hb : ∀ z ∈ b1, z.at_ ≠ x.at_) (hm : ∀ z ∈ x :: m1, z.at_ ≠ y.at_) : (t.eraseFrom a.length x.at_ (some y.at_)).buckets = a ++ (b1 ++ y :: m2) :: c := by
  unfold Table.eraseFrom
  rw [chain_of h]
  have hd := (dropWhile_at (m := m2) hm rfl).1
  split
  · rename_i hh
    cases b1 with
    | nil =>
      unfold Table.eraseTo
      rw [chain_of h, setChain_buckets h, dropWhile_some]
      simp only [List.nil_append]
      rw [← List.cons_append, hd]
    | cons z b1 => simp at hh; exact absurd hh (hb z List.mem_cons_self)
  · rw [setChain_buckets h, (dropWhile_at hb rfl).1, (dropWhile_at hb rfl).2, dropWhile_some, ← List.cons_append, hd]

theorem foldl_eraseTo {hash : K → Nat} : ∀ (m : Nat) (t : Table K V) (p r : List (List (Node K V))), Good hash t → t.buckets = p ++ r → m ≤ r.length →
    Good hash ((List.range' p.length m).foldl (fun t n => t.eraseTo n none) t) ∧
    ((List.range' p.length m).foldl (fun t n => t.eraseTo n none) t).buckets = p ++ List.replicate m [] ++ r.drop m := by
  intro m
  induction m with
  | zero => intro t p r h hb _; exact ⟨h, by simpa using hb⟩
  | succ m ih =>
    intro t p r h hb hm
    cases r with
    | nil => simp at hm
    | cons c r =>
      rw [List.range'_succ, List.foldl_cons]
      have := ih (t.eraseTo p.length none) (p ++ [[]]) r (h.eraseTo _ _) (by rw [eraseTo_none_buckets hb]; simp) (by simpa using hm)
      simp only [List.length_append, List.length_cons, List.length_nil, Nat.zero_add] at this
      refine ⟨this.1, ?_⟩
      rw [this.2, List.replicate_succ]
      simp

theorem flatten_replicate_nil' (m : Nat) : (List.replicate m ([] : List (Node K V))).flatten = [] := by simp

theorem locate {l : List (List (Node K V))} {x : Node K V} (h : x ∈ l.flatten) : ∃ a b1 b2 c, l = a ++ (b1 ++ x :: b2) :: c := by
  obtain ⟨c, hc, hx⟩ := List.mem_flatten.1 h
  obtain ⟨a, d, rfl⟩ := List.append_of_mem hc
  obtain ⟨b1, b2, rfl⟩ := List.append_of_mem hx
  exact ⟨a, b1, b2, d, rfl⟩

theorem Good.bkt_of {hash : K → Nat} {t : Table K V} (h : Good hash t) {a c : List (List (Node K V))} {b1 b2 : List (Node K V)} {x : Node K V} (hb : t.buckets = a ++ (b1 ++ x :: b2) :: c) :
    t.bkt hash x.key = a.length := h.place a.length (b1 ++ x :: b2) (by rw [hb]; simp) x (by simp)

theorem nodup_before {l m : List (Node K V)} {x : Node K V} (h : ((l ++ x :: m).map Node.at_).Nodup) : ∀ z ∈ l, z.at_ ≠ x.at_ := by
  intro z hz e
  rw [List.map_append, List.map_cons, List.nodup_append] at h
  exact h.2.2 _ (List.mem_map_of_mem hz) _ List.mem_cons_self e

theorem Good.eraseRange {hash : K → Nat} {t : Table K V} (h : Good hash t) {pre mid post : List (Node K V)} (hn : t.nodes = pre ++ (mid ++ post)) :
    Good hash (t.eraseRange hash (mid ++ post).head? post.head?) ∧ (t.eraseRange hash (mid ++ post).head? post.head?).nodes = pre ++ post := by
  cases mid with
  | nil =>
    unfold Table.eraseRange
    simp only [List.nil_append, ↓reduceIte]
    exact ⟨h, hn⟩
  | cons x mid =>
    have hap := h.apart
    have hxm : x ∈ t.buckets.flatten := by
      have : x ∈ t.nodes := by rw [hn]; simp
      exact this
    obtain ⟨a, b1, b2, c, hb⟩ := locate hxm
    have hx2 : t.nodes = (a.flatten ++ b1) ++ x :: (b2 ++ c.flatten) := by rw [nodes_split hb]; simp
    obtain ⟨hpre, hrest⟩ := unique_place (l1 := pre) (l2 := mid ++ post) (m1 := a.flatten ++ b1) (m2 := b2 ++ c.flatten) (x := x) (by rw [← hx2, hn]; simp) (by
      have := hap; rw [hn] at this; simpa using this)
    have hfb := h.bkt_of hb
    have hlen : t.buckets.length = a.length + 1 + c.length := by rw [hb]; simp; omega
    have hb1 : ∀ z ∈ b1, z.at_ ≠ x.at_ := fun z hz => nodup_before (by rw [hx2] at hap; exact hap) z (List.mem_append_right _ hz)
    simp only [List.cons_append, List.head?_cons]
    unfold Table.eraseRange
    simp only [Option.elim_some, Option.map_some]
    cases post with
    | nil =>
      simp only [List.append_nil] at hrest hn ⊢
      simp only [List.head?_nil, Option.map_none, reduceCtorEq, ↓reduceIte, Option.elim_none, ne_eq, not_true_eq_false]
      rw [if_neg (by omega), hfb]
      have h1 := eraseFrom_none_buckets hb hb1
      have hm : t.buckets.length - (a.length + 1) = c.length := by omega
      rw [hm]
      obtain ⟨g1, g2⟩ := foldl_eraseTo (hash := hash) c.length (t.eraseFrom a.length x.at_ none) (a ++ [b1]) c (h.eraseFrom _ _ _) (by rw [h1]; simp) (Nat.le_refl _)
      simp only [List.length_append, List.length_cons, List.length_nil, Nat.zero_add] at g1 g2
      refine ⟨g1, ?_⟩
      unfold Table.nodes
      rw [g2, hpre]
      simp
    | cons y post =>
      simp only [List.head?_cons, Option.elim_some, Option.map_some, Option.some.injEq]
      have hxy : ∀ z ∈ x :: mid, z.at_ ≠ y.at_ := by
        have := hap
        rw [hn] at this
        have := (this.sublist ((List.sublist_append_right pre _).map _))
        exact nodup_before this
      rw [if_neg (hxy x List.mem_cons_self)]
      have hy : y ∈ b2 ++ c.flatten := by rw [← hrest]; simp
      rcases List.mem_append.1 hy with hy | hy
      · obtain ⟨m1, m2, rfl⟩ := List.append_of_mem hy
        obtain ⟨e1, e2⟩ := unique_place (l1 := mid) (l2 := post) (m1 := m1) (m2 := m2 ++ c.flatten) (x := y) (by rw [hrest]; simp) (by
          have := hap
          rw [hn] at this
          exact this.sublist (((List.sublist_cons_self x _).trans (List.sublist_append_right pre _)).map _))
        have hlb : t.bkt hash y.key = a.length := h.bkt_of (b1 := b1 ++ x :: m1) (b2 := m2) (c := c) (by rw [hb]; simp)
        simp only [hfb, hlb, ↓reduceIte]
        refine ⟨h.eraseFrom _ _ _, ?_⟩
        have := eraseFrom_buckets hb hb1 (by rw [← e1]; exact hxy)
        unfold Table.nodes
        rw [this, hpre, e2]
        simp
      · obtain ⟨d, n1, n2, e, rfl⟩ := locate hy
        obtain ⟨e1, e2⟩ := unique_place (l1 := mid) (l2 := post) (m1 := b2 ++ (d.flatten ++ n1)) (m2 := n2 ++ e.flatten) (x := y) (by rw [hrest]; simp) (by
          have := hap
          rw [hn] at this
          exact this.sublist (((List.sublist_cons_self x _).trans (List.sublist_append_right pre _)).map _))
        have hlb : t.bkt hash y.key = a.length + 1 + d.length := by
          have := h.bkt_of (a := a ++ (b1 ++ x :: b2) :: d) (b1 := n1) (b2 := n2) (c := e) (x := y) (by rw [hb]; simp)
          rw [this]; simp; omega
        have hlt : t.bkt hash y.key < t.buckets.length := h.bkt_lt _
        have hne1 : ¬ a.length = a.length + 1 + d.length := by omega
        have hne2 : ¬ a.length + 1 + d.length = t.buckets.length := by omega
        simp only [hfb, hlb, hne1, hne2, ↓reduceIte, ne_eq, not_false_eq_true]
        have h1 := eraseFrom_none_buckets hb hb1
        have hm : a.length + 1 + d.length - (a.length + 1) = d.length := by omega
        rw [hm]
        obtain ⟨g1, g2⟩ := foldl_eraseTo (hash := hash) d.length (t.eraseFrom a.length x.at_ none) (a ++ [b1]) (d ++ (n1 ++ y :: n2) :: e) (h.eraseFrom _ _ _) (by rw [h1]; simp) (by simp)
        simp only [List.length_append, List.length_cons, List.length_nil, Nat.zero_add] at g1 g2
        refine ⟨g1.eraseTo _ _, ?_⟩
        have hlen2 : a.length + 1 + d.length = (a ++ b1 :: List.replicate d.length []).length := by simp; omega
        have hbk : (((List.range' (a.length + 1) d.length).foldl (fun t n => t.eraseTo n none) (t.eraseFrom a.length x.at_ none))).buckets = (a ++ b1 :: List.replicate d.length []) ++ (n1 ++ y :: n2) :: e := by
          rw [g2]; simp
        have := eraseTo_buckets hbk (fun z hz => hxy z (by rw [e1]; simp [hz]))
        rw [hlen2]
        unfold Table.nodes
        rw [this, hpre, e2]
        simp

theorem Good.walkTo {hash : K → Nat} {t : Table K V} (h : Good hash t) {pre mid post : List (Node K V)} (hn : t.nodes = pre ++ (mid ++ post)) (more : Nat) :
    t.walkTo hash post.head? (mid.length + more) (mid ++ post).head? = mid := by
  induction mid generalizing pre with
  | nil =>
    cases post with
    | nil => cases more <;> rfl
    | cons y post =>
      cases more with
      | zero => rfl
      | succ m => simp [Table.walkTo]
  | cons x mid ih =>
    rw [List.length_cons, show mid.length + 1 + more = (mid.length + more) + 1 by omega]
    simp only [List.cons_append, List.head?_cons, Table.walkTo]
    rw [if_neg]
    · rw [h.next (post := mid ++ post) hn, ih (pre := pre ++ [x]) (by rw [hn]; simp)]
    · intro e
      cases post with
      | nil => simp at e
      | cons y post =>
        simp only [List.head?_cons, Option.map_some, Option.some.injEq] at e
        have := h.apart
        rw [hn] at this
        exact nodup_before (l := x :: mid) (this.sublist ((List.sublist_append_right pre _).map _)) x List.mem_cons_self e.symm

/-! ### Elements with a key are next to each other -/

def Contig (l : List (Node K V)) : Prop := ∀ k, ∃ p q r : List (Node K V), l = p ++ (q ++ r) ∧ (∀ x ∈ p, x.key ≠ k) ∧ (∀ x ∈ q, x.key = k) ∧ ∀ x ∈ r, x.key ≠ k

theorem Contig.sublist {l m : List (Node K V)} (h : Contig l) (hm : m.Sublist l) : Contig m := by
  intro k
  obtain ⟨p, q, r, rfl, h1, h2, h3⟩ := h k
  obtain ⟨p', s, rfl, e1, e2⟩ := List.sublist_append_iff.1 hm
  obtain ⟨q', r', rfl, e3, e4⟩ := List.sublist_append_iff.1 e2
  exact ⟨p', q', r', rfl, fun x hx => h1 x (e1.subset hx), fun x hx => h2 x (e3.subset hx), fun x hx => h3 x (e4.subset hx)⟩

theorem Contig.reverse {l : List (Node K V)} (h : Contig l) : Contig l.reverse := by
  intro k
  obtain ⟨p, q, r, rfl, h1, h2, h3⟩ := h k
  exact ⟨r.reverse, q.reverse, p.reverse, by simp, by simpa using h3, by simpa using h2, by simpa using h1⟩

theorem Contig.cons {l : List (Node K V)} (h : Contig l) {n : Node K V} (hn : ∀ x ∈ l, x.key ≠ n.key) : Contig (n :: l) := by
  intro k
  by_cases hk : n.key = k
  · exact ⟨[], [n], l, rfl, by simp, by simpa using hk, fun x hx => by rw [← hk]; exact hn x hx⟩
  · obtain ⟨p, q, r, rfl, h1, h2, h3⟩ := h k
    refine ⟨n :: p, q, r, rfl, ?_, h2, h3⟩
    intro x hx
    rcases List.mem_cons.1 hx with rfl | hx
    · exact hk
    · exact h1 x hx

theorem insAfter_append {n : Node K V} : ∀ (a b : List (Node K V)), insAfter n (a ++ b) = if ∃ x ∈ a, x.key = n.key then insAfter n a ++ b else a ++ insAfter n b := by
  intro a
  induction a with
  | nil => intro b; simp
  | cons y a ih =>
    intro b
    rw [List.cons_append, insAfter]
    by_cases hy : y.key = n.key
    · rw [if_pos hy, if_pos ⟨y, by simp, hy⟩, insAfter, if_pos hy]; simp
    · rw [if_neg hy, ih]
      by_cases he : ∃ x ∈ a, x.key = n.key
      · have : ∃ x ∈ y :: a, x.key = n.key := by obtain ⟨x, hx, e⟩ := he; exact ⟨x, List.mem_cons_of_mem _ hx, e⟩
        rw [if_pos he, if_pos this, insAfter, if_neg hy]; simp
      · have : ¬ ∃ x ∈ y :: a, x.key = n.key := by
          rintro ⟨x, hx, e⟩
          rcases List.mem_cons.1 hx with rfl | hx
          · exact hy e
          · exact he ⟨x, hx, e⟩
        rw [if_neg he, if_neg this]; simp

theorem insAfter_perm {n : Node K V} : ∀ {c : List (Node K V)}, (∃ x ∈ c, x.key = n.key) → (insAfter n c).Perm (n :: c) := by
  intro c
  induction c with
  | nil => rintro ⟨x, hx, -⟩; cases hx
  | cons y c ih =>
    rintro ⟨x, hx, e⟩
    rw [insAfter]
    by_cases hy : y.key = n.key
    · rw [if_pos hy]; exact List.Perm.swap _ _ _
    · rw [if_neg hy]
      have : ∃ x ∈ c, x.key = n.key := by
        rcases List.mem_cons.1 hx with rfl | hx
        · exact absurd e hy
        · exact ⟨x, hx, e⟩
      exact ((ih this).cons y).trans (List.Perm.swap _ _ _)

theorem insAfter_keys {n : Node K V} {P : K → Prop} : ∀ {c : List (Node K V)}, (∀ x ∈ c, P x.key) → ∀ x ∈ insAfter n c, P x.key := by
  intro c
  induction c with
  | nil => intro _ x hx; cases hx
  | cons y c ih =>
    intro h x hx
    rw [insAfter] at hx
    split at hx
    · rename_i hy
      rcases List.mem_cons.1 hx with rfl | hx
      · exact h _ List.mem_cons_self
      · rcases List.mem_cons.1 hx with rfl | hx
        · rw [← hy]; exact h _ List.mem_cons_self
        · exact h _ (List.mem_cons_of_mem _ hx)
    · rcases List.mem_cons.1 hx with rfl | hx
      · exact h _ List.mem_cons_self
      · exact ih (fun z hz => h z (List.mem_cons_of_mem _ hz)) x hx

theorem Contig.insAfter {l : List (Node K V)} (h : Contig l) (n : Node K V) : Contig (insAfter n l) := by
  intro k
  obtain ⟨p, q, r, rfl, h1, h2, h3⟩ := h k
  rw [insAfter_append]
  split
  · exact ⟨_, q, r, rfl, insAfter_keys (P := fun k' => k' ≠ k) h1, h2, h3⟩
  · rw [insAfter_append]
    split
    · exact ⟨p, _, r, rfl, h1, insAfter_keys (P := fun k' => k' = k) h2, h3⟩
    · exact ⟨p, q, _, rfl, h1, h2, insAfter_keys (P := fun k' => k' ≠ k) h3⟩

theorem Contig.of_chains {hash : K → Nat} {t : Table K V} (h : Good hash t) (hc : ∀ c ∈ t.buckets, Contig c) : Contig t.nodes := by
  intro k
  obtain ⟨a, c, h1, -, -, h2, h3⟩ := h.split k
  obtain ⟨p, q, r, e, e1, e2, e3⟩ := hc (t.chain (t.bkt hash k)) (by rw [h1]; simp) k
  refine ⟨a.flatten ++ p, q, r ++ c.flatten, by rw [nodes_split h1, e]; simp, ?_, e2, ?_⟩
  · intro x hx
    rcases List.mem_append.1 hx with hx | hx
    · exact h2 x hx
    · exact e1 x hx
  · intro x hx
    rcases List.mem_append.1 hx with hx | hx
    · exact e3 x hx
    · exact h3 x hx

theorem foldl_put_chain {hash : K → Nat} {n : Nat} : ∀ (l : List (Node K V)) (tmp : List (List (Node K V))) (i : Nat),
    (l.foldl (put hash n) tmp)[i]? = tmp[i]?.map fun c => (l.filter fun x => hash x.key % n = i).reverse ++ c := by
  intro l
  induction l with
  | nil => intro tmp i; simp
  | cons x l ih =>
    intro tmp i
    rw [List.foldl_cons, ih]
    unfold put
    rw [List.getElem?_modify]
    cases tmp[i]? with
    | none => simp
    | some c =>
      by_cases he : hash x.key % n = i
      · simp [he]
      · simp [he]

theorem resize_contig {hash : K → Nat} {t : Table K V} (h : Good hash t) (hc : ∀ c ∈ t.buckets, Contig c) (hint : Nat) : ∀ c ∈ (t.resize hash hint).buckets, Contig c := by
  unfold Table.resize
  split
  · split
    · rw [rehash_eq]
      intro c hcm
      obtain ⟨i, hi, he⟩ := List.getElem_of_mem hcm
      have : (t.nodes.foldl (put hash (nextPrime hint)) (List.replicate (nextPrime hint) []))[i]? = some c := by rw [List.getElem?_eq_some_iff]; exact ⟨hi, he⟩
      rw [foldl_put_chain, List.getElem?_replicate] at this
      split at this
      · simp only [Option.map_some, List.append_nil, Option.some.injEq] at this
        rw [← this]
        exact ((Contig.of_chains h hc).sublist List.filter_sublist).reverse
      · simp at this
    · exact hc
  · exact hc

theorem set_contig {bs : List (List (Node K V))} (h : ∀ c ∈ bs, Contig c) {n : Nat} {d : List (Node K V)} (hd : Contig d) : ∀ c ∈ bs.set n d, Contig c := by
  intro c hc
  rcases List.mem_or_eq_of_mem_set hc with h1 | h1
  · exact h c h1
  · rw [h1]; exact hd

theorem chain_contig {t : Table K V} (h : ∀ c ∈ t.buckets, Contig c) (n : Nat) : Contig (t.chain n) := by
  unfold Table.chain
  cases hn : t.buckets[n]? with
  | none => intro k; exact ⟨[], [], [], rfl, by simp, by simp, by simp⟩
  | some c => exact h c (List.mem_of_getElem? hn)

/-- In a chain, the elements with a key are where the loops of `equal_range` find them. -/
theorem Contig.loops {l : List (Node K V)} (h : Contig l) (k : K) : ∃ p r : List (Node K V), l = p ++ ((l.filter fun x => x.key = k) ++ r) ∧
    (l.dropWhile fun x => x.key ≠ k) = (l.filter fun x => x.key = k) ++ r ∧ ((l.filter fun x => x.key = k) ≠ [] → r = (l.dropWhile fun x => x.key ≠ k).dropWhile fun x => x.key = k) ∧
    ((l.filter fun x => x.key = k) = [] → r = []) := by
  obtain ⟨p, q, r, rfl, h1, h2, h3⟩ := h k
  have hf : ((p ++ (q ++ r)).filter fun x => x.key = k) = q := by
    rw [List.filter_append, List.filter_append, filter_nil_of h1, filter_nil_of h3]
    rw [List.filter_eq_self.2 (by intro x hx; simpa using h2 x hx)]; simp
  rw [hf]
  have hdrop : ((p ++ (q ++ r)).dropWhile fun x => x.key ≠ k) = (q ++ r).dropWhile fun x => x.key ≠ k :=
    List.dropWhile_append_of_pos (by intro x hx; simpa using h1 x hx)
  cases q with
  | nil =>
    refine ⟨p ++ r, [], by simp, ?_, by simp, by simp⟩
    rw [hdrop]
    simp only [List.nil_append, List.append_nil]
    have := List.dropWhile_append_of_pos (p := fun x : Node K V => decide (x.key ≠ k)) (l₁ := r) (l₂ := []) (by intro x hx; simpa using h3 x hx)
    simpa using this
  | cons x q =>
    have hd : ((x :: q ++ r).dropWhile fun x => x.key ≠ k) = x :: q ++ r := by
      rw [List.cons_append, List.dropWhile_cons_of_neg]; simpa using h2 x List.mem_cons_self
    refine ⟨p, r, rfl, by rw [hdrop, hd], ?_, by simp⟩
    intro _
    rw [hdrop, hd, List.dropWhile_append_of_pos (by intro y hy; simpa using h2 y hy)]
    cases r with
    | nil => rfl
    | cons y r => rw [List.dropWhile_cons_of_neg]; simpa using h3 y List.mem_cons_self

theorem equalRange_spec {hash : K → Nat} {t : Table K V} (h : Good hash t) (hc : ∀ c ∈ t.buckets, Contig c) (k : K) :
    (t.nodes.filter (fun x => x.key = k) = [] ∧ t.equalRange hash k = (none, none)) ∨
    ∃ pre post, t.nodes = pre ++ (t.nodes.filter (fun x => x.key = k) ++ post) ∧ t.equalRange hash k = ((t.nodes.filter (fun x => x.key = k) ++ post).head?, post.head?) := by
  rw [h.filter_chain]
  obtain ⟨a, c, h1, -, h3, -, -⟩ := h.split k
  obtain ⟨p, r, e1, e2, e3, e4⟩ := (chain_contig hc (t.bkt hash k)).loops k
  unfold Table.equalRange
  rw [e2]
  cases hq : (t.chain (t.bkt hash k)).filter fun x => x.key = k with
  | nil =>
    left
    rw [e4 hq]
    exact ⟨rfl, rfl⟩
  | cons x q =>
    right
    rw [hq] at e1 e2
    have hr := e3 (by rw [hq]; simp)
    rw [e2] at hr
    have hxk : x.key = k := by
      have : x ∈ (t.chain (t.bkt hash k)).filter fun x => x.key = k := by rw [hq]; simp
      simpa using (List.mem_filter.1 this).2
    rw [List.cons_append, List.dropWhile_cons_of_pos (by simpa using hxk)] at hr
    refine ⟨a.flatten ++ p, r ++ c.flatten, ?_, ?_⟩
    · rw [nodes_split h1, e1]; simp
    · simp only [List.cons_append, List.head?_cons, Prod.mk.injEq, true_and]
      rw [← hr]
      cases r with
      | cons y r => simp
      | nil =>
        simp only [List.nil_append]
        rw [firstOf_eq, ← h3, h1]; simp

/-! ### The interface -/

inductive MOp (K V : Type) where
  | insert (k : K) (v : V)
  | insertNoresize (k : K) (v : V)
  | find (k : K)
  | count (k : K)
  | range (k : K)                 -- a loop over m.equal_range(k)
  | erase (k : K)                 -- with a key that is not part of the map
  | eraseFound (k : K)            -- m.erase(m.find(k))
  | eraseEqual (k : K)            -- r = m.equal_range(k), m.erase(r.first, r.second)
  | clear
  | resize (n : Nat)
  | size
  | elements

-- models: vital/kwiversys/hash_map.hxx.in:330-372 (hash_multimap), hash_set.hxx.in:310-360 (hash_multiset)
def mstep (hash : K → Nat) (fresh : List Nat → Nat) (t : Table K V) : MOp K V → Option (Table K V × Out K V)
  | .insert k v => let r := t.insertEqual hash (fresh (t.nodes.map Node.at_)) k v; some (r.1, .value r.2.val)
  | .insertNoresize k v => let r := t.insertEqualNoresize hash (fresh (t.nodes.map Node.at_)) k v; some (r.1, .value r.2.val)
  | .find k => some (t, .found ((t.find hash k).map Node.val))
  | .count k => some (t, .number (t.count hash k))
  | .range k => some (t, .list ((t.walkTo hash (t.equalRange hash k).2 (t.num + 1) (t.equalRange hash k).1).map pair))
  | .erase k => (t.eraseKey hash (.value k)).map fun r => (r.1, .number r.2)
  | .eraseFound k => match t.find hash k with
    | none => some (t, .done)
    | some x => some (t.eraseAt hash x, .done)
  | .eraseEqual k => some (t.eraseRange hash (t.equalRange hash k).1 (t.equalRange hash k).2, .done)
  | .clear => some (t.clear, .done)
  | .resize n => some (t.resize hash n, .done)
  | .size => some (t, .number t.num)
  | .elements => some (t, .list ((t.walk hash (t.num + 1) t.begin_).map pair))

def mrun (hash : K → Nat) (fresh : List Nat → Nat) (t : Table K V) : List (MOp K V) → Option (Table K V × List (Out K V))
  | [] => some (t, [])
  | op :: ops => match mstep hash fresh t op with
    | none => none
    | some (t', o) => (mrun hash fresh t' ops).map fun r => (r.1, o :: r.2)

/-! ### Specification: a list of pairs, the order of which does not count -/

def MSpec (s : List (K × V)) : MOp K V → List (K × V) → Out K V → Prop
  | .insert k v, s', o | .insertNoresize k v, s', o => s'.Perm ((k, v) :: s) ∧ o = .value v
  | .find k, s', o => s'.Perm s ∧ ∃ r, o = .found r ∧ (r = none → ∀ p ∈ s, p.1 ≠ k) ∧ ∀ v, r = some v → (k, v) ∈ s
  | .count k, s', o => s'.Perm s ∧ o = .number (s.filter fun p => p.1 = k).length
  | .range k, s', o => s'.Perm s ∧ ∃ l, o = .list l ∧ l.Perm (s.filter fun p => p.1 = k)
  | .erase k, s', o => s'.Perm (s.filter fun p => p.1 ≠ k) ∧ o = .number (s.filter fun p => p.1 = k).length
  | .eraseFound k, s', o => o = .done ∧ ((∀ p ∈ s, p.1 ≠ k) ∧ s'.Perm s ∨ ∃ v, s.Perm ((k, v) :: s'))
  | .eraseEqual k, s', o => s'.Perm (s.filter fun p => p.1 ≠ k) ∧ o = .done
  | .clear, s', o => s' = [] ∧ o = .done
  | .resize _, s', o => s'.Perm s ∧ o = .done
  | .size, s', o => s'.Perm s ∧ o = .number s.length
  | .elements, s', o => s'.Perm s ∧ ∃ l, o = .list l ∧ l.Perm s

def MFollows : List (K × V) → List (MOp K V) → List (K × V) → List (Out K V) → Prop
  | s, [], s', os => s' = s ∧ os = []
  | s, op :: ops, s', os => ∃ o os' s1, os = o :: os' ∧ MSpec s op s1 o ∧ MFollows s1 ops s' os'

/-! ### Refinement -/

structure MRep (hash : K → Nat) (t : Table K V) : Prop where
  good : Good hash t
  contig : ∀ c ∈ t.buckets, Contig c

theorem pairs_filter (l : List (Node K V)) (k : K) : (l.map pair).filter (fun p => p.1 = k) = (l.filter fun x => x.key = k).map pair := by
  rw [List.filter_map]; rfl

theorem pairs_filter_ne (l : List (Node K V)) (k : K) : (l.map pair).filter (fun p => p.1 ≠ k) = (l.filter fun x => x.key ≠ k).map pair := by
  rw [List.filter_map]; rfl

theorem insertEqualNoresize_spec {hash : K → Nat} {t : Table K V} (h : MRep hash t) {a : Nat} (ha : a ∉ t.nodes.map Node.at_) (k : K) (v : V) :
    MRep hash (t.insertEqualNoresize hash a k v).1 ∧ (t.insertEqualNoresize hash a k v).1.nodes.Perm (⟨a, k, v⟩ :: t.nodes) ∧ (t.insertEqualNoresize hash a k v).2 = ⟨a, k, v⟩ := by
  have key : ∀ d : List (Node K V), d.Perm (⟨a, k, v⟩ :: t.chain (t.bkt hash k)) → Contig d →
      MRep hash ⟨t.buckets.set (t.bkt hash k) d, t.num + 1⟩ ∧ (⟨t.buckets.set (t.bkt hash k) d, t.num + 1⟩ : Table K V).nodes.Perm (⟨a, k, v⟩ :: t.nodes) := by
    intro d hd hcd
    have hperm : ∀ b c : List (Node K V), (b ++ (d ++ c)).Perm (⟨a, k, v⟩ :: (b ++ (t.chain (t.bkt hash k) ++ c))) := by
      intro b c
      exact ((hd.append_right c).append_left b).trans (by rw [List.cons_append]; exact List.perm_middle)
    refine ⟨⟨h.good.set k ?_ ?_, set_contig h.contig hcd⟩, ?_⟩
    · intro x hx
      rcases List.mem_cons.1 ((hd.mem_iff).1 hx) with rfl | hx
      · rfl
      · have hlt := h.good.bkt_lt k
        refine h.good.place _ (t.chain (t.bkt hash k)) ?_ x hx
        unfold Table.chain; simp [hlt]
    · intro b c hbc
      have hp := hperm b c
      rw [← hbc] at hp
      refine ⟨by rw [hp.length_eq, h.good.size]; rfl, ((hp.map Node.at_).nodup_iff).2 ?_⟩
      rw [List.map_cons, List.nodup_cons]; exact ⟨ha, h.good.apart⟩
    · obtain ⟨b, c, h1, h2, -⟩ := h.good.split k
      have hn : (⟨t.buckets.set (t.bkt hash k) d, t.num + 1⟩ : Table K V).nodes = b.flatten ++ (d ++ c.flatten) := nodes_split (h2 _)
      rw [hn, nodes_split h1]
      exact hperm _ _
  unfold Table.insertEqualNoresize
  split
  · rename_i he
    obtain ⟨h1, h2⟩ := key (insAfter ⟨a, k, v⟩ (t.chain (t.bkt hash k))) (insAfter_perm he) ((chain_contig h.contig _).insAfter _)
    exact ⟨h1, h2, rfl⟩
  · rename_i he
    obtain ⟨h1, h2⟩ := key (⟨a, k, v⟩ :: t.chain (t.bkt hash k)) (List.Perm.refl _) ((chain_contig h.contig _).cons fun x hx e => he ⟨x, hx, e⟩)
    exact ⟨h1, h2, rfl⟩

theorem MRep.resize {hash : K → Nat} {t : Table K V} (h : MRep hash t) (n : Nat) : MRep hash (t.resize hash n) := ⟨(h.good.resize n).1, resize_contig h.good h.contig n⟩

theorem contig_of_sublist {l m : List (List (Node K V))} (h : ∀ c ∈ l, Contig c) (hs : List.Forall₂ List.Sublist m l) : ∀ c ∈ m, Contig c := by
  induction hs with
  | nil => exact h
  | cons h1 _ ih =>
    intro c hc
    rcases List.mem_cons.1 hc with rfl | hc
    · exact (h _ List.mem_cons_self).sublist h1
    · exact ih (fun c hc => h c (List.mem_cons_of_mem _ hc)) c hc

theorem setChain_contig {t : Table K V} (h : ∀ c ∈ t.buckets, Contig c) (n : Nat) {d : List (Node K V)} (hd : d.Sublist (t.chain n)) : ∀ c ∈ (t.setChain n d).buckets, Contig c :=
  set_contig h ((chain_contig h n).sublist hd)

theorem eraseTo_contig {t : Table K V} (h : ∀ c ∈ t.buckets, Contig c) (n : Nat) (last : Option Nat) : ∀ c ∈ (t.eraseTo n last).buckets, Contig c := setChain_contig h n (List.dropWhile_sublist _)

theorem eraseFrom_contig {t : Table K V} (h : ∀ c ∈ t.buckets, Contig c) (n first : Nat) (last : Option Nat) : ∀ c ∈ (t.eraseFrom n first last).buckets, Contig c := by
  unfold Table.eraseFrom
  split
  · exact eraseTo_contig h n last
  · refine setChain_contig h n ?_
    conv => rhs; rw [← List.takeWhile_append_dropWhile (p := fun x => decide (x.at_ ≠ first)) (l := t.chain n)]
    exact (List.Sublist.refl _).append (List.dropWhile_sublist _)

theorem eraseRange_contig {hash : K → Nat} {t : Table K V} (h : ∀ c ∈ t.buckets, Contig c) (first last : Option (Node K V)) : ∀ c ∈ (t.eraseRange hash first last).buckets, Contig c := by
  have hfold : ∀ (l : List Nat) (t : Table K V), (∀ c ∈ t.buckets, Contig c) → ∀ c ∈ (l.foldl (fun t n => t.eraseTo n none) t).buckets, Contig c := by
    intro l
    induction l with
    | nil => intro t h; exact h
    | cons n l ih => intro t h; exact ih _ (eraseTo_contig h n none)
  unfold Table.eraseRange
  simp only
  split
  · exact h
  · split
    · exact h
    · split
      · exact eraseFrom_contig h _ _ _
      · split
        · exact eraseTo_contig (hfold _ _ (eraseFrom_contig h _ _ _)) _ _
        · exact hfold _ _ (eraseFrom_contig h _ _ _)

theorem MRep.step {hash : K → Nat} {fresh : List Nat → Nat} (hfr : ∀ l, fresh l ∉ l) {t : Table K V} (h : MRep hash t) (op : MOp K V) :
    ∃ t' o, mstep hash fresh t op = some (t', o) ∧ MRep hash t' ∧ MSpec t.pairs op t'.pairs o := by
  have hwalk : t.walk hash (t.num + 1) t.begin_ = t.nodes := h.good.walk 1
  cases op with
  | insert k v =>
    obtain ⟨h1, h2, h3⟩ := insertEqualNoresize_spec (h.resize (t.num + 1)) (resize_at h.good _ (hfr (t.nodes.map Node.at_))) k v
    refine ⟨_, _, rfl, h1, ((h2.trans ((h.good.resize _).2.cons _)).map pair), ?_⟩
    unfold Table.insertEqual; rw [h3]
  | insertNoresize k v =>
    obtain ⟨h1, h2, h3⟩ := insertEqualNoresize_spec h (hfr (t.nodes.map Node.at_)) k v
    refine ⟨_, _, rfl, h1, h2.map pair, ?_⟩
    rw [h3]
  | find k =>
    refine ⟨_, _, rfl, h, List.Perm.refl _, _, rfl, ?_, ?_⟩
    · rw [h.good.find_eq]
      intro e p hp
      obtain ⟨x, hx, rfl⟩ := List.mem_map.1 hp
      exact notMem_of_find (Option.map_eq_none_iff.1 e) x hx
    · rw [h.good.find_eq]
      intro v e
      obtain ⟨x, hx, rfl⟩ := Option.map_eq_some_iff.1 e
      have hk : x.key = k := by simpa using List.find?_some hx
      exact List.mem_map.2 ⟨x, List.mem_of_find?_eq_some hx, by rw [← hk]; rfl⟩
  | count k =>
    refine ⟨_, _, rfl, h, List.Perm.refl _, ?_⟩
    unfold Table.pairs Table.count
    rw [pairs_filter, ← h.good.filter_chain, List.length_map]
  | range k =>
    refine ⟨_, _, rfl, h, List.Perm.refl _, _, rfl, ?_⟩
    unfold Table.pairs
    rw [pairs_filter]
    rcases equalRange_spec h.good h.contig k with ⟨e1, e2⟩ | ⟨pre, post, e1, e2⟩
    · rw [e1, e2]; simp [Table.walkTo]
    · rw [e2]
      have hl : (t.nodes.filter fun x => x.key = k).length ≤ t.num := by rw [h.good.size]; exact List.length_filter_le _ _
      have := h.good.walkTo e1 (t.num + 1 - (t.nodes.filter fun x => x.key = k).length)
      rw [show (t.nodes.filter fun x => decide (x.key = k)).length + (t.num + 1 - (t.nodes.filter fun x => decide (x.key = k)).length) = t.num + 1 by omega] at this
      rw [this]
  | erase k =>
    obtain ⟨t', h1, h2, h3⟩ := h.good.eraseValue k
    have hcont : ∀ c ∈ t'.buckets, Contig c := by
      have hq : t'.buckets = t.buckets ∨ ∃ d, d.Sublist (t.chain (t.bkt hash k)) ∧ t'.buckets = t.buckets.set (t.bkt hash k) d := by
        unfold Table.eraseKey at h1
        simp only [KeyRef.key] at h1
        cases hc : t.chain (t.bkt hash k) with
        | nil => rw [hc] at h1; simp only [Option.some.injEq, Prod.mk.injEq] at h1; exact .inl (by rw [h1.1])
        | cons x c =>
          rw [hc] at h1
          simp only [eraseLoop_value, Bool.false_eq_true, ↓reduceIte] at h1
          right
          by_cases hx : x.key = k
          · simp only [hx, ↓reduceIte, Option.some.injEq, Prod.mk.injEq] at h1
            exact ⟨_, List.filter_sublist.trans (List.sublist_cons_self _ _), by rw [← h1.1]⟩
          · simp only [hx, ↓reduceIte, Option.some.injEq, Prod.mk.injEq] at h1
            exact ⟨_, (List.filter_sublist (p := fun x => decide (x.key ≠ k))).cons_cons x, by rw [← h1.1]⟩
      rcases hq with e | ⟨d, hd, e⟩
      · rw [e]; exact h.contig
      · rw [e]; exact set_contig h.contig ((chain_contig h.contig _).sublist hd)
    refine ⟨t', .number (t.nodes.filter fun x => x.key = k).length, ?_, ⟨h2, hcont⟩, ?_, ?_⟩
    · simp only [mstep, h1, Option.map_some]
    · unfold Table.pairs; rw [h3, pairs_filter_ne]
    · unfold Table.pairs; rw [pairs_filter, List.length_map]
  | eraseFound k =>
    have hf := h.good.find_eq k
    simp only [mstep]
    cases hc : t.find hash k with
    | none =>
      rw [hc] at hf
      refine ⟨t, .done, rfl, h, rfl, .inl ⟨?_, List.Perm.refl _⟩⟩
      intro p hp
      obtain ⟨x, hx, rfl⟩ := List.mem_map.1 hp
      exact notMem_of_find hf.symm x hx
    | some x =>
      rw [hc] at hf
      have hx : x ∈ t.nodes := List.mem_of_find?_eq_some hf.symm
      have hk : x.key = k := by simpa using List.find?_some hf.symm
      obtain ⟨g1, g2⟩ := h.good.eraseAt hx
      refine ⟨_, .done, rfl, ⟨g1, set_contig h.contig ((chain_contig h.contig _).sublist List.eraseP_sublist)⟩, rfl, .inr ⟨x.val, ?_⟩⟩
      have := (g2.map pair).symm
      rw [List.map_cons, show pair x = (k, x.val) by rw [← hk]; rfl] at this
      exact this
  | eraseEqual k =>
    refine ⟨_, _, rfl, ?_⟩
    rcases equalRange_spec h.good h.contig k with ⟨e1, e2⟩ | ⟨pre, post, e1, e2⟩
    · rw [e2]
      have : t.eraseRange hash none none = t := by unfold Table.eraseRange; simp
      rw [this]
      refine ⟨h, ?_, rfl⟩
      unfold Table.pairs
      rw [pairs_filter_ne, filter_self_of]
      intro x hx e
      have : x ∈ t.nodes.filter fun x => x.key = k := by simpa using ⟨hx, e⟩
      rw [e1] at this; cases this
    · rw [e2]
      obtain ⟨g1, g2⟩ := h.good.eraseRange e1
      refine ⟨⟨g1, eraseRange_contig h.contig _ _⟩, ?_, rfl⟩
      unfold Table.pairs
      rw [g2, pairs_filter_ne]
      -- the filter of the whole, split
      have hq : ∀ x ∈ t.nodes.filter fun x => x.key = k, x.key = k := fun x hx => by simpa using (List.mem_filter.1 hx).2
      have hfil := congrArg (List.filter fun x => decide (x.key = k)) e1
      rw [List.filter_append, List.filter_append, List.filter_filter] at hfil
      have hlen := congrArg List.length hfil
      simp only [List.length_append, Bool.and_self] at hlen
      have hp0 : (pre.filter fun x => x.key = k) = [] := List.length_eq_zero_iff.1 (by omega)
      have hr0 : (post.filter fun x => x.key = k) = [] := List.length_eq_zero_iff.1 (by omega)
      have hne : ∀ l : List (Node K V), (l.filter fun x => x.key = k) = [] → (l.filter fun x => x.key ≠ k) = l := by
        intro l hl
        apply filter_self_of
        intro x hx e
        have : x ∈ l.filter fun x => x.key = k := by simpa using ⟨hx, e⟩
        rw [hl] at this; cases this
      conv => rhs; rw [e1]
      rw [List.filter_append, List.filter_append, hne pre hp0, hne post hr0]
      have : ((t.nodes.filter fun x => x.key = k).filter fun x => x.key ≠ k) = [] := by
        rw [List.filter_eq_nil_iff]; intro x hx; simpa using hq x hx
      rw [this]; simp
  | clear =>
    obtain ⟨g1, g2⟩ := h.good.clear
    refine ⟨_, _, rfl, ⟨g1, ?_⟩, by unfold Table.pairs; rw [g2]; rfl, rfl⟩
    intro c hc
    obtain ⟨_, -, rfl⟩ := List.mem_map.1 hc
    intro k; exact ⟨[], [], [], rfl, by simp, by simp, by simp⟩
  | resize n => exact ⟨_, _, rfl, h.resize n, (h.good.resize n).2.map pair, rfl⟩
  | size => exact ⟨_, _, rfl, h, List.Perm.refl _, by unfold Table.pairs; rw [h.good.size, List.length_map]⟩
  | elements => exact ⟨_, _, rfl, h, List.Perm.refl _, _, rfl, by rw [hwalk]; exact List.Perm.refl _⟩

theorem mrep_init (hash : K → Nat) (n : Nat) : MRep hash (init n : Table K V) := by
  refine ⟨good_init hash n, ?_⟩
  intro c hc
  rw [List.eq_of_mem_replicate hc]
  intro k; exact ⟨[], [], [], rfl, by simp, by simp, by simp⟩

theorem MRep.run {hash : K → Nat} {fresh : List Nat → Nat} (hfr : ∀ l, fresh l ∉ l) : ∀ (ops : List (MOp K V)) (t : Table K V), MRep hash t →
    ∃ t' os, mrun hash fresh t ops = some (t', os) ∧ MFollows t.pairs ops t'.pairs os ∧ MRep hash t' := by
  intro ops
  induction ops with
  | nil => intro t h; exact ⟨t, [], rfl, ⟨rfl, rfl⟩, h⟩
  | cons op ops ih =>
    intro t h
    obtain ⟨t1, o, e1, h1, a1⟩ := h.step hfr op
    obtain ⟨t2, os, e2, h2, h3⟩ := ih t1 h1
    exact ⟨t2, o :: os, by simp [mrun, e1, e2], ⟨o, os, t1.pairs, rfl, a1, h2⟩, h3⟩

/-- C161: any operations on a multimap are carried out, and every answer is that of a multiset of pairs. -/
theorem C161_multimap (hash : K → Nat) (fresh : List Nat → Nat) (hfr : ∀ l, fresh l ∉ l) (n : Nat) (ops : List (MOp K V)) :
    ∃ t os s, mrun hash fresh (init n) ops = some (t, os) ∧ MFollows [] ops s os := by
  obtain ⟨t, os, h1, h2, -⟩ := (mrep_init (V := V) hash n).run hfr ops
  have : (init n : Table K V).pairs = [] := by unfold Table.pairs Table.nodes init; simp
  exact ⟨t, os, _, h1, by rw [← this]; exact h2⟩

/-- C161: a loop over all elements visits those with a key one after the other, however they were inserted. -/
theorem C161_together (hash : K → Nat) (fresh : List Nat → Nat) (hfr : ∀ l, fresh l ∉ l) (n : Nat) (ops : List (MOp K V)) {t : Table K V} {os : List (Out K V)}
    (h : mrun hash fresh (init n) ops = some (t, os)) (k : K) :
    ∃ p q r, t.walk hash (t.num + 1) t.begin_ = p ++ (q ++ r) ∧ (∀ x ∈ p, x.key ≠ k) ∧ (∀ x ∈ q, x.key = k) ∧ ∀ x ∈ r, x.key ≠ k := by
  obtain ⟨t', os', h1, -, h2⟩ := (mrep_init (V := V) hash n).run hfr ops
  rw [h] at h1; cases h1
  rw [h2.good.walk 1]
  exact Contig.of_chains h2.good h2.contig k

-- keys 3 and 8 share a bucket; after six elements there are eleven buckets
example : (mrun (K := Nat) (V := Nat) id freshNat (init 0)
    [.insert 3 1, .insert 8 2, .insert 3 3, .insert 3 4, .range 3, .count 3, .insert 8 5, .insert 3 6, .range 3, .eraseFound 3, .range 3, .range 7, .eraseEqual 3, .elements, .erase 8, .size]).map
      (fun r => r.2.map fun o => match o with
        | .list l => l.map Prod.snd | .number n => [n] | .value v => [v] | _ => []) =
    some [[1], [2], [3], [4], [1, 4, 3], [3], [5], [6], [3, 6, 4, 1], [], [6, 4, 1], [], [], [5, 2], [2], [0]] := by decide +kernel

/-- C162: erasing from one iterator to another takes away exactly the elements a loop from the one to the other would visit; the others stay, in the same order. -/
theorem C162_range (hash : K → Nat) (fresh : List Nat → Nat) (hfr : ∀ l, fresh l ∉ l) (d : V) (n : Nat) {t : Table K V}
    (h : (∃ ops os, run hash fresh d (init n) ops = some (t, os)) ∨ ∃ ops os, mrun hash fresh (init n) ops = some (t, os)) {pre mid post : List (Node K V)}
    (hw : t.walk hash (t.num + 1) t.begin_ = pre ++ (mid ++ post)) :
    (t.eraseRange hash (mid ++ post).head? post.head?).walk hash (t.num + 1) (t.eraseRange hash (mid ++ post).head? post.head?).begin_ = pre ++ post ∧
    (t.eraseRange hash (mid ++ post).head? post.head?).num = (pre ++ post).length := by
  have hg : Good hash t := by
    rcases h with ⟨ops, os, h⟩ | ⟨ops, os, h⟩
    · obtain ⟨f, hf⟩ := reached hfr h; exact hf.good
    · obtain ⟨t', os', h1, -, h2⟩ := (mrep_init (V := V) hash n).run hfr ops
      rw [h] at h1; cases h1
      exact h2.good
  have hn : t.nodes = pre ++ (mid ++ post) := by rw [← hw]; exact (hg.walk 1).symm
  obtain ⟨g1, g2⟩ := hg.eraseRange hn
  have hnum : (t.eraseRange hash (mid ++ post).head? post.head?).num = (pre ++ post).length := by rw [g1.size, g2]
  refine ⟨?_, hnum⟩
  have hle : (pre ++ post).length ≤ t.num := by rw [hg.size, hn]; simp only [List.length_append]; omega
  have := g1.walk (t.num + 1 - (pre ++ post).length)
  rw [hnum, show (pre ++ post).length + (t.num + 1 - (pre ++ post).length) = t.num + 1 by omega, g2] at this
  exact this

-- six elements in three of eleven buckets; the second to the fifth are erased
example : ((mrun (K := Nat) (V := Nat) id freshNat (init 6) [.insert 3 1, .insert 14 2, .insert 5 3, .insert 16 4, .insert 7 5, .insert 18 6]).map fun r =>
    let l := r.1.walk id 7 r.1.begin_
    (l.map Node.key, ((r.1.eraseRange id l[1]? l[5]?).walk id 7 (r.1.eraseRange id l[1]? l[5]?).begin_).map Node.key)) =
    some ([14, 3, 16, 5, 18, 7], [14, 7]) := by decide +kernel

end Vital.Hash
