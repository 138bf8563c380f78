/-
  Model of vital/types/covariance.h (class covariance_<N,T>); properties C51, C52.
  The scalar type `T` is arbitrary; `(a + b) / 2` is `half (add a b)`.  The `unsigned` index arithmetic is
  taken without wrap-around (N is a small template constant).
  Not modelled: generalized_variance and the stream operators (declared only).
-/
namespace Vital.Cov

variable {T U : Type}

-- models: vital/types/covariance.h:57 (data_size)
def dataSize (N : Nat) : Nat := N * (N + 1) / 2

-- models: vital/types/covariance.h:179-182 (vector_index)
def vectorIndex (i j : Nat) : Nat := if j > i then j * (j + 1) / 2 + i else i * (i + 1) / 2 + j

/-- The index pairs in the order in which the nested loops `for j < N { for i < j …; … }` write `data_[n++]`;
    the last pair of each round is the diagonal one. -/
-- models: the loops in vital/types/covariance.h:84-94, 103-113, 128-138
def pairs (N : Nat) : List (Nat × Nat) := (List.range N).flatMap fun j => (List.range (j + 1)).map fun i => (i, j)

-- models: vital/types/covariance.h:100-114 (constructor from a matrix); the sequence of values written to
-- data_[0], data_[1], …
def fromMatrix (add : T → T → T) (half : T → T) (N : Nat) (mat : Nat → Nat → T) : List T :=
  (pairs N).map fun p => if p.1 < p.2 then half (add (mat p.1 p.2) (mat p.2 p.1)) else mat p.2 p.2

-- models: vital/types/covariance.h:81-95 (constructor from a scalar)
def fromScalar (zero : T) (N : Nat) (value : T) : List T :=
  (pairs N).map fun p => if p.1 < p.2 then zero else value

/-- One assignment `mat(i,j) = mat(j,i) = data_[n++]`. -/
def assign (mat : Nat → Nat → Option T) (p : Nat × Nat) (v : T) : Nat → Nat → Option T :=
  fun a b => if (a = p.1 ∧ b = p.2) ∨ (a = p.2 ∧ b = p.1) then some v else mat a b

-- models: vital/types/covariance.h:128-138 (the loop of the conversion to a matrix: pairs against data_)
def fill : List (Nat × Nat) → List T → (Nat → Nat → Option T) → (Nat → Nat → Option T)
  | p :: ps, v :: vs, mat => fill ps vs (assign mat p v)
  | _, _, mat => mat

-- models: vital/types/covariance.h:125-140 (conversion to a matrix; entries start indeterminate)
def toMatrix (N : Nat) (data : List T) : Nat → Nat → Option T := fill (pairs N) data (fun _ _ => none)

-- models: vital/types/covariance.h:143-157 (operator() reading)
def entry (data : List T) (i j : Nat) : Option T := data[vectorIndex i j]?

-- models: vital/types/covariance.h:143-148 (operator() used as an assignment target)
def setEntry (data : List T) (i j : Nat) (v : T) : List T := data.set (vectorIndex i j) v

-- models: vital/types/covariance.h:69-78 (converting constructor: `for i < N` over data_size slots; the
-- remaining slots are left indeterminate, `none`)
def convert (cast : U → T) (N : Nat) (data : List U) : List (Option T) :=
  (data.take N).map (fun x => some (cast x)) ++ List.replicate (dataSize N - N) none

/-! ### Index arithmetic -/

theorem tri_succ (j : Nat) : (j + 1) * (j + 1 + 1) / 2 = j * (j + 1) / 2 + (j + 1) := by
  have : (j + 1) * (j + 1 + 1) = j * (j + 1) + 2 * (j + 1) := by
    rw [Nat.mul_add (j + 1) (j + 1) 1, Nat.add_mul j 1 (j + 1)]; omega
  rw [this]
  omega

theorem tri_mono {a b : Nat} (h : a ≤ b) : a * (a + 1) / 2 ≤ b * (b + 1) / 2 :=
  Nat.div_le_div_right (Nat.mul_le_mul h (by omega))

/-- A pair `i ≤ j` sits between two triangular numbers. -/
theorem tri_bounds {i j N : Nat} (hij : i ≤ j) (hj : j < N) : j * (j + 1) / 2 + i < dataSize N := by
  have h1 := tri_mono (show j + 1 ≤ N from hj)
  rw [tri_succ] at h1
  unfold dataSize
  omega

theorem tri_inj {i j i' j' : Nat} (h : i ≤ j) (h' : i' ≤ j') (e : j * (j + 1) / 2 + i = j' * (j' + 1) / 2 + i') :
    i = i' ∧ j = j' := by
  have key : ∀ {a b c d : Nat}, a ≤ b → c ≤ d → b < d → b * (b + 1) / 2 + a < d * (d + 1) / 2 + c := by
    intro a b c d hab _ hbd
    have h1 := tri_mono (show b + 1 ≤ d from hbd)
    rw [tri_succ] at h1
    omega
  rcases Nat.lt_trichotomy j j' with hlt | heq | hgt
  · have := key h h' hlt; omega
  · subst heq; omega
  · have := key h' h hgt; omega

theorem vi_of_le {i j : Nat} (h : i ≤ j) : vectorIndex i j = j * (j + 1) / 2 + i := by
  unfold vectorIndex
  by_cases hc : j > i
  · rw [if_pos hc]
  · have : i = j := by omega
    subst this; rw [if_neg hc]

theorem vi_symm (i j : Nat) : vectorIndex i j = vectorIndex j i := by
  unfold vectorIndex
  rcases Nat.lt_trichotomy i j with h | h | h
  · rw [if_pos h, if_neg (by omega)]
  · subst h; rfl
  · rw [if_neg (by omega), if_pos h]

/-! ### C51 -/

/-- `vector_index` is symmetric, inside the storage, injective on unordered pairs, and onto. -/
theorem C51_vector_index (N : Nat) :
    (∀ i j, vectorIndex i j = vectorIndex j i) ∧
    (∀ i j, i < N → j < N → vectorIndex i j < N * (N + 1) / 2) ∧
    (∀ i j i' j', vectorIndex i j = vectorIndex i' j' → (i = i' ∧ j = j') ∨ (i = j' ∧ j = i')) ∧
    (∀ n, n < N * (N + 1) / 2 → ∃ i j, i ≤ j ∧ j < N ∧ vectorIndex i j = n) := by
  refine ⟨vi_symm, ?_, ?_, ?_⟩
  · intro i j hi hj
    rcases Nat.le_total i j with h | h
    · rw [vi_of_le h]; exact tri_bounds h hj
    · rw [vi_symm, vi_of_le h]; exact tri_bounds h hi
  · intro i j i' j' e
    rcases Nat.le_total i j with h | h <;> rcases Nat.le_total i' j' with h' | h'
    · rw [vi_of_le h, vi_of_le h'] at e; exact Or.inl (tri_inj h h' e)
    · rw [vi_of_le h, vi_symm, vi_of_le h'] at e; exact Or.inr (tri_inj h h' e)
    · rw [vi_symm, vi_of_le h, vi_of_le h'] at e
      obtain ⟨a, b⟩ := tri_inj h h' e; exact Or.inr ⟨b, a⟩
    · rw [vi_symm, vi_of_le h, vi_symm, vi_of_le h'] at e
      obtain ⟨a, b⟩ := tri_inj h h' e; exact Or.inl ⟨b, a⟩
  · induction N with
    | zero => intro n hn; simp at hn
    | succ N ih =>
      intro n hn
      rw [tri_succ] at hn
      by_cases hlt : n < N * (N + 1) / 2
      · obtain ⟨i, j, h1, h2, h3⟩ := ih n hlt
        exact ⟨i, j, h1, by omega, h3⟩
      · exact ⟨n - N * (N + 1) / 2, N, by omega, by omega, by rw [vi_of_le (by omega)]; omega⟩

theorem pairs_succ (N : Nat) : pairs (N + 1) = pairs N ++ (List.range (N + 1)).map fun i => (i, N) := by
  unfold pairs
  rw [List.range_succ (n := N), List.flatMap_append]
  simp [List.range_succ]

theorem length_pairs (N : Nat) : (pairs N).length = dataSize N := by
  induction N with
  | zero => rfl
  | succ N ih =>
    rw [pairs_succ, List.length_append, ih, List.length_map, List.length_range]
    unfold dataSize
    rw [tri_succ]

theorem pairs_get {N i j : Nat} (hij : i ≤ j) (hj : j < N) : (pairs N)[vectorIndex i j]? = some (i, j) := by
  rw [vi_of_le hij]
  induction N with
  | zero => omega
  | succ N ih =>
    rw [pairs_succ]
    have hl := length_pairs N
    unfold dataSize at hl
    by_cases hjN : j < N
    · have := tri_bounds hij hjN
      unfold dataSize at this
      rw [List.getElem?_append_left (by omega)]
      exact ih hjN
    · have : j = N := by omega
      subst this
      rw [List.getElem?_append_right (by omega), hl, Nat.add_sub_cancel_left,
        List.getElem?_map, List.getElem?_range (by omega)]
      rfl

theorem mem_pairs {N : Nat} {p : Nat × Nat} : p ∈ pairs N ↔ p.1 ≤ p.2 ∧ p.2 < N := by
  unfold pairs
  simp only [List.mem_flatMap, List.mem_range, List.mem_map]
  constructor
  · rintro ⟨j, hj, i, hi, rfl⟩; exact ⟨by simp; omega, hj⟩
  · rintro ⟨h1, h2⟩; exact ⟨p.2, h2, p.1, by omega, rfl⟩

/-- The covariance built from a matrix holds at `(i,j)` the average of the two off-diagonal entries (the
    diagonal entry itself for `i = j`), for either order of the indices; it fills exactly the storage. -/
theorem C51_from_matrix (add : T → T → T) (half : T → T) (hc : ∀ a b, add a b = add b a) (N : Nat) (mat : Nat → Nat → T)
    (i j : Nat) (hi : i < N) (hj : j < N) :
    (fromMatrix add half N mat).length = N * (N + 1) / 2 ∧
    entry (fromMatrix add half N mat) i j = some (if i = j then mat i j else half (add (mat i j) (mat j i))) := by
  constructor
  · unfold fromMatrix; rw [List.length_map, length_pairs]; rfl
  · unfold entry fromMatrix
    rw [List.getElem?_map]
    rcases Nat.lt_trichotomy i j with h | h | h
    · rw [pairs_get (by omega) hj]; simp [h, Nat.ne_of_lt h]
    · subst h; rw [pairs_get (by omega) hj]; simp
    · rw [vi_symm, pairs_get (by omega) hi]
      simp [h, Nat.ne_of_gt h, hc (mat j i)]

theorem fill_get (ps : List (Nat × Nat)) (hps : ∀ p ∈ ps, p.1 ≤ p.2) (hnd : ps.Nodup) :
    ∀ (vs : List T) (mat : Nat → Nat → Option T), vs.length = ps.length → ∀ a b, a ≤ b →
      (∀ (n : Nat) (v : T), ps[n]? = some (a, b) → vs[n]? = some v → fill ps vs mat a b = some v ∧ fill ps vs mat b a = some v) ∧
      ((a, b) ∉ ps → fill ps vs mat a b = mat a b ∧ fill ps vs mat b a = mat b a) := by
  induction ps with
  | nil => intro vs mat hl a b _; simp [fill]
  | cons p ps ih =>
    intro vs mat hl a b hab
    cases vs with
    | nil => simp at hl
    | cons v vs =>
      have hnd' := List.nodup_cons.1 hnd
      have hp := hps p (by simp)
      obtain ⟨ih1, ih2⟩ := ih (fun q hq => hps q (by simp [hq])) hnd'.2 vs (assign mat p v) (by simpa using hl) a b hab
      simp only [fill]
      constructor
      · intro n w hn hw
        cases n with
        | zero =>
          simp at hn hw
          subst hn; subst hw
          have := ih2 hnd'.1
          rw [this.1, this.2]
          simp [assign]
        | succ n =>
          simp at hn hw
          exact ih1 n w hn hw
      · intro hn
        have h1 : (a, b) ∉ ps := fun h => hn (by simp [h])
        have h2 : (a, b) ≠ p := fun h => hn (by simp [h])
        rw [(ih2 h1).1, (ih2 h1).2]
        have : ¬ ((a = p.1 ∧ b = p.2) ∨ (a = p.2 ∧ b = p.1)) := by
          rintro (⟨e1, e2⟩ | ⟨e1, e2⟩)
          · exact h2 (Prod.ext e1 e2)
          · have : a = b := by omega
            exact h2 (Prod.ext (by show a = p.1; omega) (by show b = p.2; omega))
        have this' : ¬ ((b = p.1 ∧ a = p.2) ∨ (b = p.2 ∧ a = p.1)) := by
          rintro (⟨e1, e2⟩ | ⟨e1, e2⟩)
          · exact this (Or.inr ⟨e2, e1⟩)
          · exact this (Or.inl ⟨e2, e1⟩)
        simp only [assign]
        rw [if_neg this, if_neg this']
        exact ⟨rfl, rfl⟩

theorem nodup_pairs (N : Nat) : (pairs N).Nodup := by
  induction N with
  | zero => simp [pairs]
  | succ N ih =>
    rw [pairs_succ]
    refine List.nodup_append.2 ⟨ih, ?_, ?_⟩
    · refine List.pairwise_map.2 (List.nodup_range.imp ?_)
      intro x y h he; simp at he; exact h he
    · rintro p hp q hq rfl
      have := (mem_pairs.1 hp).2
      obtain ⟨i, _, rfl⟩ := List.mem_map.1 hq
      simp at this

/-- The matrix of a covariance has at `(i,j)` the entry `(i,j)`; every matrix entry is assigned. -/
theorem C51_to_matrix (N : Nat) (data : List T) (hl : data.length = N * (N + 1) / 2) (i j : Nat) (hi : i < N) (hj : j < N) :
    toMatrix N data i j = entry data i j ∧ (toMatrix N data i j).isSome := by
  have hl' : data.length = (pairs N).length := by rw [length_pairs]; exact hl
  have main : ∀ a b, a ≤ b → b < N → toMatrix N data a b = entry data a b ∧ toMatrix N data b a = entry data a b ∧
      (entry data a b).isSome := by
    intro a b hab hb
    have hlt : vectorIndex a b < data.length := by rw [hl]; exact (C51_vector_index N).2.1 a b (by omega) hb
    have hs : data[vectorIndex a b]? = some data[vectorIndex a b] := List.getElem?_eq_getElem hlt
    obtain ⟨h1, _⟩ := fill_get (pairs N) (fun p hp => (mem_pairs.1 hp).1) (nodup_pairs N) data (fun _ _ => none) hl' a b hab
    obtain ⟨h2, h3⟩ := h1 _ _ (pairs_get hab hb) hs
    unfold toMatrix entry
    rw [h2, h3, hs]
    exact ⟨rfl, rfl, rfl⟩
  rcases Nat.le_total i j with h | h
  · obtain ⟨h1, _, h3⟩ := main i j h hj
    rw [h1]; exact ⟨rfl, h3⟩
  · obtain ⟨_, h2, h3⟩ := main j i h hi
    have e : entry data i j = entry data j i := by unfold entry; rw [vi_symm]
    rw [h2, e]; exact ⟨rfl, h3⟩

/-- Writing one entry changes that entry (in both orders) and no other. -/
theorem C51_set_entry (N : Nat) (data : List T) (hl : data.length = N * (N + 1) / 2) (v : T) (i j a b : Nat)
    (hi : i < N) (hj : j < N) :
    entry (setEntry data i j v) a b = if (a = i ∧ b = j) ∨ (a = j ∧ b = i) then some v else entry data a b := by
  unfold entry setEntry
  rw [List.getElem?_set]
  have hlt : vectorIndex i j < data.length := by rw [hl]; exact (C51_vector_index N).2.1 i j hi hj
  by_cases he : vectorIndex i j = vectorIndex a b
  · rw [if_pos he, if_pos hlt]
    rcases (C51_vector_index N).2.2.1 i j a b he with ⟨e1, e2⟩ | ⟨e1, e2⟩
    · rw [if_pos (Or.inl ⟨e1.symm, e2.symm⟩)]
    · rw [if_pos (Or.inr ⟨e2.symm, e1.symm⟩)]
  · rw [if_neg he, if_neg]
    rintro (⟨rfl, rfl⟩ | ⟨rfl, rfl⟩)
    · exact he rfl
    · exact he (vi_symm _ _)

/-- The scalar constructor gives the scaled identity. -/
theorem C51_scalar (zero value : T) (N : Nat) (i j : Nat) (hi : i < N) (hj : j < N) :
    entry (fromScalar zero N value) i j = some (if i = j then value else zero) := by
  unfold entry fromScalar
  rw [List.getElem?_map]
  rcases Nat.lt_trichotomy i j with h | h | h
  · rw [pairs_get (by omega) hj]; simp [h, Nat.ne_of_lt h]
  · subst h; rw [pairs_get (by omega) hj]; simp
  · rw [vi_symm, pairs_get (by omega) hi]; simp [h, Nat.ne_of_gt h]

example : fromMatrix (· + ·) (· / 2) 3 (fun i j => 10 * i + j) = [0, 5, 11, 11, 16, 22] ∧
    toMatrix 3 [0, 5, 11, 11, 16, 22] 2 1 = some 16 ∧ vectorIndex 2 0 = 3 := by decide +kernel

/-! ### C52 -/

/-- Full property: every stored entry is converted. -/
def C52_statement : Prop := ∀ (T U : Type) (cast : U → T) (N : Nat) (data : List U), data.length = N * (N + 1) / 2 →
  convert cast N data = data.map (fun x => some (cast x))

/-- C52 is false of the code: only the first `N` of the `N(N+1)/2` entries are copied, for every `N ≥ 2`. -/
theorem C52_refuted : ¬ C52_statement ∧
    ∀ (T U : Type) (cast : U → T) (N : Nat) (data : List U), 2 ≤ N → data.length = N * (N + 1) / 2 →
      (convert cast N data)[N * (N + 1) / 2 - 1]? = some none := by
  have main : ∀ (T U : Type) (cast : U → T) (N : Nat) (data : List U), 2 ≤ N → data.length = N * (N + 1) / 2 →
      (convert cast N data)[N * (N + 1) / 2 - 1]? = some none := by
    intro T U cast N data hN hl
    have h1 : N * 3 ≤ N * (N + 1) := Nat.mul_le_mul_left N (by omega)
    have hlt : N < N * (N + 1) / 2 := by omega
    unfold convert
    have hlen : ((data.take N).map (fun x => some (cast x))).length = N := by simp [hl]; omega
    rw [List.getElem?_append_right (by omega), hlen, List.getElem?_replicate, if_pos (by unfold dataSize; omega)]
  refine ⟨fun h => ?_, main⟩
  have h1 := main Nat Nat id 2 [1, 2, 3] (by omega) (by decide)
  rw [h Nat Nat id 2 [1, 2, 3] (by decide)] at h1
  simp at h1

/-- What holds: the first `N` entries are converted, and all of them when `N ≤ 1`. -/
theorem C52_partial (cast : U → T) (N : Nat) (data : List U) (hl : data.length = N * (N + 1) / 2) :
    (∀ n x, n < N → data[n]? = some x → (convert cast N data)[n]? = some (some (cast x))) ∧
    (N ≤ 1 → convert cast N data = data.map (fun x => some (cast x))) := by
  constructor
  · intro n x hn hx
    unfold convert
    have hlt := (List.getElem?_eq_some_iff.1 hx).1
    rw [List.getElem?_append_left (by simp; omega), List.getElem?_map, List.getElem?_take, if_pos hn, hx]
    rfl
  · intro hN
    have : N = 0 ∨ N = 1 := by omega
    rcases this with rfl | rfl
    · simp at hl; subst hl; rfl
    · match data, hl with
      | [x], _ => rfl

end Vital.Cov
