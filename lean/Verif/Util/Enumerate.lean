/-
  Model of vital/util/enumerate_matrix.h: iteration over the stored cells of a sparse matrix, and property C57.

  A sparse matrix is the list of its outer vectors (columns, or rows for row-major matrices), each the list of its stored
  cells (inner index and value) in storage order.
-/
namespace Vital.Enum

variable {α : Type}

abbrev Matrix (α : Type) := List (List (Nat × α))

/-- Number of cells the inner iterator of an outer vector runs over.  For an outer index that does not exist Eigen reads
    behind its index array: an arbitrary number, `junk`. -/
-- models: Eigen::SparseMatrix::InnerIterator (constructor and `operator bool`)
def innerSize (m : Matrix α) (junk o : Nat) : Nat := (m[o]?.map List.length).getD junk

/-- Position of an iterator: outer index and number of increments of the inner iterator; `none` without an inner iterator
    (the end). -/
-- models: vital/util/enumerate_matrix.h:86-90 (members)
abbrev Iter := Option (Nat × Nat)

/-- `operator++`.  The first argument bounds the recursion; each recursive call has a larger outer index. -/
-- models: vital/util/enumerate_matrix.h:164-188
def incr (m : Matrix α) (junk : Nat) : Nat → Iter → Iter
  | _, none => none
  | 0, some p => some p
  | n + 1, some (o, k) =>
    if k + 1 < innerSize m junk o then some (o, k + 1)
    else if o + 1 < m.length then
      (if 0 < innerSize m junk (o + 1) then some (o + 1, 0) else incr m junk n (some (o + 1, 0)))
    else none

def next (m : Matrix α) (junk : Nat) (it : Iter) : Iter := incr m junk (m.length + 1) it

-- models: vital/util/enumerate_matrix.h:102-109, 128-139 (begin)
def begin_ (m : Matrix α) (junk : Nat) : Iter :=
  if 0 < innerSize m junk 0 then some (0, 0) else next m junk (some (0, 0))

/-- The cell an iterator refers to, with its outer index; `none` when there is no such cell. -/
-- models: vital/util/enumerate_matrix.h:79
def deref (m : Matrix α) (p : Nat × Nat) : Option (Nat × Nat × α) :=
  (m[p.1]?.bind (fun r => r[p.2]?)).map (fun c => (p.1, c))

/-- `operator==` of two iterators of the same matrix. -/
-- models: vital/util/enumerate_matrix.h:149-162
def iterEq (m : Matrix α) (a b : Iter) : Bool :=
  match a, b with
  | none, none => true
  | some p, some q => p.1 == q.1 && ((deref m p).map (·.2.1) == (deref m q).map (·.2.1))
  | _, _ => false

/-- The loop `for ( it = begin; it != end; ++it )`: the cells visited; the outer `none` means that the loop has not ended after
    the given number of tests. -/
def walk (m : Matrix α) (junk : Nat) : Nat → Iter → Option (List (Option (Nat × Nat × α)))
  | 0, _ => none
  | n + 1, it =>
    match it with
    | none => some []
    | some p => (walk m junk n (next m junk (some p))).map (deref m p :: ·)

/-! ### Specification -/

/-- The stored cells, in storage order. -/
def cellsFrom : Nat → Matrix α → List (Nat × Nat × α)
  | _, [] => []
  | o, r :: m => r.map (fun c => (o, c)) ++ cellsFrom (o + 1) m

def cells (m : Matrix α) : List (Nat × Nat × α) := cellsFrom 0 m

/-- The full claim. -/
def C57_statement : Prop := ∀ (m : Matrix Nat) (junk : Nat), ∃ n, walk m junk n (begin_ m junk) = some ((cells m).map some)

/-- The cells from a position on. -/
def remaining (m : Matrix α) : Iter → List (Nat × Nat × α)
  | none => []
  | some (o, k) => (((m[o]?.getD []).drop k).map (fun c => (o, c))) ++ cellsFrom (o + 1) (m.drop (o + 1))

theorem cellsFrom_drop {m : Matrix α} {o : Nat} (h : o < m.length) :
    cellsFrom o (m.drop o) = (m[o]?.getD []).map (fun c => (o, c)) ++ cellsFrom (o + 1) (m.drop (o + 1)) := by
  rw [List.drop_eq_getElem_cons h]
  simp [cellsFrom, h]

/-- A position that refers to a cell. -/
def Valid (m : Matrix α) : Iter → Prop
  | none => True
  | some (o, k) => ∃ r, m[o]? = some r ∧ k < r.length

theorem innerSize_of {m : Matrix α} {junk o : Nat} (h : o < m.length) : innerSize m junk o = (m[o]?.getD []).length := by
  unfold innerSize
  simp [h]

theorem incr_spec (m : Matrix α) (junk : Nat) : ∀ n o k, o < m.length → m.length ≤ n + o →
    Valid m (incr m junk n (some (o, k))) ∧ remaining m (incr m junk n (some (o, k))) = remaining m (some (o, k + 1)) := by
  intro n
  induction n with
  | zero => intro o k h1 h2; omega
  | succ n ih =>
    intro o k ho hn
    unfold incr
    rw [innerSize_of ho]
    by_cases h1 : k + 1 < (m[o]?.getD []).length
    · rw [if_pos h1]
      refine ⟨⟨m[o], by simp [ho], by simpa [ho] using h1⟩, rfl⟩
    · rw [if_neg h1]
      have hrow : (m[o]?.getD []).drop (k + 1) = [] := List.drop_eq_nil_of_le (by omega)
      by_cases h2 : o + 1 < m.length
      · rw [if_pos h2, innerSize_of h2]
        by_cases h3 : 0 < (m[o + 1]?.getD []).length
        · rw [if_pos h3]
          refine ⟨⟨m[o + 1], by simp [h2], by simpa [h2] using h3⟩, ?_⟩
          show _ = remaining m (some (o, k + 1))
          simp only [remaining]
          rw [hrow, cellsFrom_drop h2]
          simp
        · rw [if_neg h3]
          obtain ⟨a, b⟩ := ih (o + 1) 0 h2 (by omega)
          refine ⟨a, ?_⟩
          rw [b]
          simp only [remaining]
          have hz : m[o + 1]?.getD [] = [] := List.eq_nil_of_length_eq_zero (by omega)
          rw [hrow, cellsFrom_drop h2, hz]
          simp
      · rw [if_neg h2]
        refine ⟨trivial, ?_⟩
        simp only [remaining]
        rw [hrow, List.drop_eq_nil_of_le (by omega)]
        rfl

theorem next_spec (m : Matrix α) (junk : Nat) {o k : Nat} (h : Valid m (some (o, k))) :
    Valid m (next m junk (some (o, k))) ∧
    ∃ c, deref m (o, k) = some c ∧ remaining m (some (o, k)) = c :: remaining m (next m junk (some (o, k))) := by
  obtain ⟨r, hr, hk⟩ := h
  have ho : o < m.length := by
    rcases Nat.lt_or_ge o m.length with h | h
    · exact h
    · rw [List.getElem?_eq_none h] at hr; simp at hr
  obtain ⟨a, b⟩ := incr_spec m junk (m.length + 1) o k ho (by omega)
  refine ⟨a, (o, r[k]), ?_, ?_⟩
  · unfold deref; simp [hr, hk]
  · unfold next
    rw [b]
    simp only [remaining]
    rw [hr]
    simp only [Option.getD_some]
    rw [List.drop_eq_getElem_cons hk]
    rfl

theorem walk_spec (m : Matrix α) (junk : Nat) : ∀ n it, Valid m it → (remaining m it).length = n →
    walk m junk (n + 1) it = some ((remaining m it).map some) := by
  intro n
  induction n with
  | zero =>
    intro it hv hl
    cases it with
    | none => rfl
    | some p =>
      obtain ⟨o, k⟩ := p
      obtain ⟨_, c, _, h⟩ := next_spec m junk hv
      rw [h] at hl; simp at hl
  | succ n ih =>
    intro it hv hl
    cases it with
    | none => simp [remaining] at hl
    | some p =>
      obtain ⟨o, k⟩ := p
      obtain ⟨hv', c, hc, h⟩ := next_spec m junk hv
      rw [h] at hl ⊢
      show (walk m junk (n + 1) (next m junk (some (o, k)))).map (deref m (o, k) :: ·) = _
      rw [ih _ hv' (by simpa using hl), hc]
      rfl

/-- C57: on a matrix with at least one outer vector the loop ends, after visiting each stored cell exactly once in storage
    order; it makes one test more than there are cells. -/
theorem C57_partial (m : Matrix α) (junk : Nat) (h : m ≠ []) :
    walk m junk ((cells m).length + 1) (begin_ m junk) = some ((cells m).map some) := by
  have ho : 0 < m.length := List.length_pos_iff.2 h
  have hstart : Valid m (begin_ m junk) ∧ remaining m (begin_ m junk) = cells m := by
    unfold begin_
    rw [innerSize_of ho]
    have hc : cells m = (m[0]?.getD []).map (fun c => (0, c)) ++ cellsFrom 1 (m.drop 1) := cellsFrom_drop ho
    by_cases h1 : 0 < (m[0]?.getD []).length
    · rw [if_pos h1]
      exact ⟨⟨m[0], by simp [ho], by simpa [ho] using h1⟩, by rw [hc]; rfl⟩
    · rw [if_neg h1]
      obtain ⟨a, b⟩ := incr_spec m junk (m.length + 1) 0 0 ho (by omega)
      refine ⟨a, ?_⟩
      unfold next
      rw [b, hc]
      have hz : m[0]?.getD [] = [] := List.eq_nil_of_length_eq_zero (by omega)
      simp only [remaining]
      rw [hz]
      rfl
  have := walk_spec m junk (cells m).length (begin_ m junk) hstart.1 (by rw [hstart.2])
  rw [this, hstart.2]

/-- The full claim is false: for a matrix without outer vectors the constructor reads an index that does not exist, and the
    loop may visit a cell that does not exist. -/
theorem C57_refuted : ¬ C57_statement := by
  intro h
  obtain ⟨n, h⟩ := h [] 1
  have hb : begin_ ([] : Matrix Nat) 1 = some (0, 0) := by decide
  rw [hb] at h
  cases n with
  | zero => simp [walk] at h
  | succ n =>
    unfold walk at h
    simp [cells, cellsFrom] at h

/-- Iterators compare equal exactly when they are at the same position (inner indices do not repeat in an outer vector). -/
theorem C57_equality (m : Matrix α) (hm : ∀ r ∈ m, (r.map (·.1)).Nodup) {a b : Iter} (ha : Valid m a) (hb : Valid m b) :
    iterEq m a b = true ↔ a = b := by
  cases a with
  | none => cases b <;> simp [iterEq]
  | some p =>
    cases b with
    | none => simp [iterEq]
    | some q =>
      obtain ⟨o, k⟩ := p
      obtain ⟨o', k'⟩ := q
      obtain ⟨r, hr, hk⟩ := ha
      obtain ⟨r', hr', hk'⟩ := hb
      simp only [iterEq, deref, hr, hr', Option.bind_some, List.getElem?_eq_getElem hk, List.getElem?_eq_getElem hk', Option.map_some,
        Bool.and_eq_true, beq_iff_eq, Option.some.injEq, Prod.mk.injEq]
      constructor
      · rintro ⟨h1, h2⟩
        subst h1
        rw [hr] at hr'
        injection hr' with hr'
        subst hr'
        refine ⟨rfl, ?_⟩
        have hn := hm r (List.mem_of_getElem? hr)
        exact (List.getElem_inj (h₀ := by simpa using hk) (h₁ := by simpa using hk') hn).1 (by simpa using h2)
      · rintro ⟨h1, h2⟩
        subst h1; subst h2
        rw [hr] at hr'
        injection hr' with hr'
        subst hr'
        exact ⟨rfl, rfl⟩

/-- Empty vectors at the beginning, in the middle and at the end. -/
example : walk [[], [(2, 'a'), (5, 'b')], [], [], [(0, 'c')], []] 9 4 (begin_ [[], [(2, 'a'), (5, 'b')], [], [], [(0, 'c')], []] 9) =
    some [some (1, 2, 'a'), some (1, 5, 'b'), some (4, 0, 'c')] := by decide

example : walk ([[], []] : Matrix Nat) 9 1 (begin_ ([[], []] : Matrix Nat) 9) = some [] := by decide

end Vital.Enum
