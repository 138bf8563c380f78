import Verif.Basic.Str
import Mathlib.Tactic.Ring
import Mathlib.Data.Rat.Defs
import Mathlib.Algebra.Order.Ring.Rat
/-
  Who shares storage with whom: frame homographies (C138), dynamic descriptors (C139); interval timers (C140).
-/
namespace Vital.Share
open Vital

/-! ## C138: frame homographies keep their own transformation -/

/-- A `f2f_homography` (or a `f2w_homography`, with the two identifiers equal). -/
-- models: vital/types/homography_f2f.h:124-133, vital/types/homography_f2w.h:65-71 (members)
structure FH where
  ptr : Nat
  fromId : Int
  toId : Int
  deriving DecidableEq

/-- The program's homographies, its frame homographies and its shared pointers to homographies. -/
structure HState (M : Type) where
  /-- homography objects; an object that nothing refers to any more is not removed, which nobody can observe -/
  heap : List M
  objs : List FH
  ptrs : List Nat

inductive HOp (M : Type)
  | newSptr (m : M)                        -- `homography_sptr p( new homography_<T>( m ) )`
  | ident (one : M) (a b : Int)            -- `f2w_homography x( a )`, `f2f_homography x( a )`
  | fromSptr (p : Nat) (a b : Int)         -- `f2f_homography x( p, a, b )`
  | copy (x : Nat)                         -- `f2f_homography y( x )`
  | assign (x y : Nat)                     -- `x = y`
  | get (x : Nat)                          -- `homography_sptr p = x.homography()`
  | write (p : Nat) (m : M)                -- `dynamic_cast< homography_<T>& >( *p ).get_matrix() = m`

/-- The value a homography object holds. -/
def HState.at {M : Type} (s : HState M) (k : Nat) : Option M := s.heap[k]?

-- models: vital/types/homography_f2f.cxx:46-86, vital/types/homography_f2w.cxx:43-75; the assignment operator is the implicit one and
-- copies the members; `clone` makes a new object with the same value.  Calls with a non-existing object or pointer are left out (no effect).
def HState.step {M : Type} (s : HState M) : HOp M → HState M
  | .newSptr m => { s with heap := s.heap ++ [m], ptrs := s.ptrs ++ [s.heap.length] }
  | .ident one a b => { s with heap := s.heap ++ [one], objs := s.objs ++ [⟨s.heap.length, a, b⟩] }
  | .fromSptr p a b =>
    match s.ptrs[p]? with
    | none => s
    | some k => match s.heap[k]? with
      | none => s
      | some m => { s with heap := s.heap ++ [m], objs := s.objs ++ [⟨s.heap.length, a, b⟩] }
  | .copy x =>
    match s.objs[x]? with
    | none => s
    | some o => match s.heap[o.ptr]? with
      | none => s
      | some m => { s with heap := s.heap ++ [m], objs := s.objs ++ [⟨s.heap.length, o.fromId, o.toId⟩] }
  | .assign x y =>
    match s.objs[y]? with
    | none => s
    | some o => { s with objs := s.objs.set x o }
  | .get x =>
    match s.objs[x]? with
    | none => s
    | some o => { s with ptrs := s.ptrs ++ [o.ptr] }
  | .write p m =>
    match s.ptrs[p]? with
    | none => s
    | some k => { s with heap := s.heap.set k m }

def HState.run {M : Type} (s : HState M) (ops : List (HOp M)) : HState M := ops.foldl HState.step s

def hInit (M : Type) : HState M := ⟨[], [], []⟩

/-- What the user sees of frame homography `x`: its transformation and its frames. -/
def HState.view {M : Type} (s : HState M) (x : Nat) : Option (M × Int × Int) :=
  (s.objs[x]?).bind fun o => (s.at o.ptr).map fun m => (m, o.fromId, o.toId)

/-- The full statement ("we retain a unique copy"): writing through the pointer that `x.homography()` returns, or through the pointer an
    object was made from, changes no frame homography other than `x`. -/
def C138_statement (M : Type) : Prop :=
  ∀ (ops : List (HOp M)) (x y : Nat) (m : M), x ≠ y → x < ((hInit M).run ops).objs.length →
    let s := ((hInit M).run ops).step (.get x)
    (s.step (.write ((hInit M).run ops).ptrs.length m)).view y = s.view y

/-- It is false: after `x = y` the two share one transformation. -/
theorem C138_refuted : ¬ C138_statement Nat := by
  intro h
  have := h [.ident 1 0 0, .ident 2 5 5, .assign 1 0] 0 1 9 (by decide) (by decide)
  revert this
  decide

/-- No history call is an assignment. -/
def NoAssign {M : Type} (ops : List (HOp M)) : Prop := ∀ x y, HOp.assign x y ∉ ops

structure HInv {M : Type} (s : HState M) : Prop where
  objs : ∀ o ∈ s.objs, o.ptr < s.heap.length
  ptrs : ∀ k ∈ s.ptrs, k < s.heap.length
  apart : s.objs.Pairwise (fun a b => a.ptr ≠ b.ptr)

theorem hinv_grow {M : Type} {s : HState M} (h : HInv s) (m : M) (a b : Int) : HInv { s with heap := s.heap ++ [m], objs := s.objs ++ [⟨s.heap.length, a, b⟩] } := by
  refine ⟨?_, ?_, ?_⟩
  · intro o ho
    simp only [List.mem_append, List.mem_singleton] at ho
    simp only [List.length_append, List.length_singleton]
    rcases ho with ho | rfl
    · have := h.objs o ho; omega
    · simp
  · intro k hk
    simp only [List.length_append, List.length_singleton]
    have := h.ptrs k hk; omega
  · rw [List.pairwise_append]
    refine ⟨h.apart, List.pairwise_singleton _ _, ?_⟩
    intro o ho o' ho'
    simp only [List.mem_singleton] at ho'
    subst ho'
    have := h.objs o ho
    simp only [ne_eq]
    omega

theorem hinv_step {M : Type} {s : HState M} (h : HInv s) (op : HOp M) (hop : ∀ x y, op ≠ .assign x y) : HInv (s.step op) := by
  cases op with
  | newSptr m =>
    refine ⟨?_, ?_, h.apart⟩
    · intro o ho
      have := h.objs o ho
      simp only [HState.step, List.length_append, List.length_singleton]; omega
    · intro k hk
      simp only [HState.step, List.mem_append, List.mem_singleton] at hk
      simp only [HState.step, List.length_append, List.length_singleton]
      rcases hk with hk | rfl
      · have := h.ptrs k hk; omega
      · omega
  | ident one a b => exact hinv_grow h one a b
  | fromSptr p a b =>
    simp only [HState.step]
    split
    · exact h
    · split
      · exact h
      · exact hinv_grow h _ a b
  | copy x =>
    simp only [HState.step]
    split
    · exact h
    · split
      · exact h
      · exact hinv_grow h _ _ _
  | assign x y => exact absurd rfl (hop x y)
  | get x =>
    simp only [HState.step]
    split
    · exact h
    · rename_i o ho
      refine ⟨h.objs, ?_, h.apart⟩
      intro k hk
      simp only [List.mem_append, List.mem_singleton] at hk
      rcases hk with hk | rfl
      · exact h.ptrs k hk
      · exact h.objs o (List.mem_of_getElem? ho)
  | write p m =>
    simp only [HState.step]
    split
    · exact h
    · exact ⟨by simpa using h.objs, by simpa using h.ptrs, h.apart⟩

theorem hinv_run {M : Type} : ∀ (ops : List (HOp M)) (s : HState M), NoAssign ops → HInv s → HInv (s.run ops) := by
  intro ops
  induction ops with
  | nil => intro s _ h; exact h
  | cons op ops ih =>
    intro s hn h
    exact ih _ (fun x y hm => hn x y (by simp [hm])) (hinv_step h op (fun x y e => hn x y (by simp [e])))

theorem objs_apart {M : Type} {s : HState M} (h : HInv s) {x y : Nat} {o o' : FH} (hx : s.objs[x]? = some o) (hy : s.objs[y]? = some o') (hne : x ≠ y) : o.ptr ≠ o'.ptr := by
  obtain ⟨hx1, hx2⟩ := List.getElem?_eq_some_iff.1 hx
  obtain ⟨hy1, hy2⟩ := List.getElem?_eq_some_iff.1 hy
  have hp := List.pairwise_iff_getElem.1 h.apart
  rcases Nat.lt_or_gt_of_ne hne with h1 | h1
  · have := hp x y hx1 hy1 h1; rw [hx2, hy2] at this; exact this
  · have := hp y x hy1 hx1 h1; rw [hx2, hy2] at this; exact this.symm

/-- C138 for histories without assignments: the write through `x.homography()` is seen in `x` and in no other frame homography. -/
theorem C138_unique_copy_partial {M : Type} (ops : List (HOp M)) (hn : NoAssign ops) (x y : Nat) (m : M) (hne : x ≠ y) (hx : x < ((hInit M).run ops).objs.length) :
    let s := ((hInit M).run ops).step (.get x)
    let t := s.step (.write ((hInit M).run ops).ptrs.length m)
    t.view y = s.view y ∧ (∃ a b m0, s.view x = some (m0, a, b) ∧ t.view x = some (m, a, b)) := by
  have hi : HInv ((hInit M).run ops) := hinv_run ops _ hn ⟨by simp [hInit], by simp [hInit], by simp [hInit]⟩
  generalize (hInit M).run ops = s0 at hi hx ⊢
  intro s t
  obtain ⟨o, ho⟩ : ∃ o, s0.objs[x]? = some o := ⟨_, List.getElem?_eq_getElem hx⟩
  have hs : s = { s0 with ptrs := s0.ptrs ++ [o.ptr] } := by simp only [s, HState.step, ho]
  have ht : t = { s0 with ptrs := s0.ptrs ++ [o.ptr], heap := s0.heap.set o.ptr m } := by
    simp only [t, hs, HState.step]
    simp
  have hlt : o.ptr < s0.heap.length := hi.objs o (List.mem_of_getElem? ho)
  rw [ht, hs]
  refine ⟨?_, o.fromId, o.toId, s0.heap[o.ptr], ?_, ?_⟩
  · unfold HState.view HState.at
    simp only
    cases hy : s0.objs[y]? with
    | none => rfl
    | some o' =>
      simp only [Option.bind_some]
      rw [List.getElem?_set_ne (objs_apart hi ho hy hne)]
  · unfold HState.view HState.at
    simp [ho, List.getElem?_eq_getElem hlt]
  · unfold HState.view HState.at
    simp [ho, hlt]

/-- A pointer to a standalone homography: writing through it changes no frame homography made from it. -/
theorem C138_made_from_partial {M : Type} (ops : List (HOp M)) (hn : NoAssign ops) (m0 m : M) (a b : Int) (y : Nat) :
    let s0 := (hInit M).run ops
    let s := (s0.step (.newSptr m0)).step (.fromSptr s0.ptrs.length a b)
    s.view s0.objs.length = some (m0, a, b) ∧ (s.step (.write s0.ptrs.length m)).view y = s.view y := by
  intro s0 s
  have hi : HInv s0 := hinv_run ops _ hn ⟨by simp [hInit], by simp [hInit], by simp [hInit]⟩
  have hs : s = ⟨s0.heap ++ [m0] ++ [m0], s0.objs ++ [⟨s0.heap.length + 1, a, b⟩], s0.ptrs ++ [s0.heap.length]⟩ := by
    simp [s, HState.step]
  have hi' : HInv s := by
    simp only [s]
    exact hinv_step (hinv_step hi _ (by intro x y e; cases e)) _ (by intro x y e; cases e)
  rw [hs]
  refine ⟨by simp [HState.view, HState.at], ?_⟩
  unfold HState.view HState.at HState.step
  simp only [List.getElem?_append_right (Nat.le_refl _), Nat.sub_self, List.getElem?_cons_zero]
  cases hy : (s0.objs ++ [⟨s0.heap.length + 1, a, b⟩])[y]? with
  | none => rfl
  | some o =>
    simp only [Option.bind_some]
    have : s0.heap.length ≠ o.ptr := by
      have hm := List.mem_of_getElem? hy
      rw [List.mem_append, List.mem_singleton] at hm
      rcases hm with hm | rfl
      · have := hi.objs o hm; omega
      · simp
    rw [List.getElem?_set_ne this]

/-- A copy, and an assigned object, starts with the value and frames of the original. -/
theorem C138_copy_equal {M : Type} (s : HState M) (x : Nat) (v : M × Int × Int) (hv : s.view x = some v) :
    (s.step (.copy x)).view s.objs.length = some v ∧ ∀ y, y < s.objs.length → (s.step (.assign y x)).view y = some v := by
  unfold HState.view HState.at at hv
  cases ho : s.objs[x]? with
  | none => simp [ho] at hv
  | some o =>
    simp only [ho, Option.bind_some] at hv
    cases hm : s.heap[o.ptr]? with
    | none => simp [hm] at hv
    | some m =>
      simp only [hm, Option.map_some, Option.some.injEq] at hv
      subst hv
      refine ⟨?_, ?_⟩
      · simp [HState.step, HState.view, HState.at, ho, hm]
      · intro y hy
        simp [HState.step, HState.view, HState.at, ho, hm, hy]

example : ((hInit Nat).run [.newSptr 3, .fromSptr 0 1 2, .copy 0, .get 0, .write 1 7]).view 0 = some (7, 1, 2) ∧
    ((hInit Nat).run [.newSptr 3, .fromSptr 0 1 2, .copy 0, .get 0, .write 1 7]).view 1 = some (3, 1, 2) := by decide

/-! ## C139: dynamic descriptors -/

/-- `descriptor_dynamic<T>`: the address of its array and its length. -/
-- models: vital/types/descriptor.h:176-180 (members)
structure DD where
  addr : Nat
  len : Nat
  deriving DecidableEq

structure DState (T : Type) where
  /-- arrays; `none` once deleted -/
  heap : List (Option (List T))
  /-- descriptor objects; `none` once destroyed -/
  objs : List (Option DD)

inductive DOp (T : Type)
  | new (content : List T)                 -- `descriptor_dynamic<T> d( len )`; `content` is whatever the new array holds
  | copy (x : Nat)                         -- `descriptor_dynamic<T> e( d )`
  | write (x i : Nat) (v : T)              -- `d.raw_data()[i] = v`
  | destroy (x : Nat)                      -- end of the lifetime of `d`

def setIdx {α : Type} (l : List α) (i : Nat) (v : α) : List α := l.set i v

-- models: vital/types/descriptor.h:150-180; the copy constructor is the implicit one.  `none` = undefined behaviour: an array deleted
-- twice, an access outside of an array or to a deleted one, or the use of an object that does not exist.
def DState.step {T : Type} (s : DState T) : DOp T → Option (DState T)
  | .new c => some ⟨s.heap ++ [some c], s.objs ++ [some ⟨s.heap.length, c.length⟩]⟩
  | .copy x =>
    match s.objs[x]? with
    | some (some d) => some { s with objs := s.objs ++ [some d] }
    | _ => none
  | .write x i v =>
    match s.objs[x]? with
    | some (some d) =>
      match s.heap[d.addr]? with
      | some (some a) => if i < a.length then some { s with heap := s.heap.set d.addr (some (a.set i v)) } else none
      | _ => none
    | _ => none
  | .destroy x =>
    match s.objs[x]? with
    | some (some d) =>
      match s.heap[d.addr]? with
      | some (some _) => some ⟨s.heap.set d.addr none, s.objs.set x none⟩
      | _ => none
    | _ => none

def DState.run {T : Type} (s : DState T) : List (DOp T) → Option (DState T)
  | [] => some s
  | op :: ops => (s.step op).bind (fun t => t.run ops)

/-- Specification: descriptors are values. `none` = the caller uses a destroyed or non-existing descriptor, or an index outside. -/
def vStep {T : Type} (s : List (Option (List T))) : DOp T → Option (List (Option (List T)))
  | .new c => some (s ++ [some c])
  | .copy x => match s[x]? with
    | some (some a) => some (s ++ [some a])
    | _ => none
  | .write x i v => match s[x]? with
    | some (some a) => if i < a.length then some (s.set x (some (a.set i v))) else none
    | _ => none
  | .destroy x => match s[x]? with
    | some (some _) => some (s.set x none)
    | _ => none

def vRun {T : Type} (s : List (Option (List T))) : List (DOp T) → Option (List (Option (List T)))
  | [] => some s
  | op :: ops => (vStep s op).bind (fun t => vRun t ops)

/-- The elements of descriptor `x`. -/
def DState.elems {T : Type} (s : DState T) (x : Nat) : Option (List T) :=
  match s.objs[x]? with
  | some (some d) => match s.heap[d.addr]? with
    | some (some a) => some (a.take d.len)
    | _ => none
  | _ => none

-- models: vital/types/descriptor.h:94-100 (as_bytes of `descriptor_array_of`): the object representations of the elements one after another
def asBytes {T : Type} (repr : T → List UInt8) (a : List T) : List UInt8 := (a.map repr).flatten

-- models: vital/types/descriptor.h:92 (num_bytes)
def numBytes {T : Type} (sizeofT : Nat) (a : List T) : Nat := a.length * sizeofT

-- models: vital/types/descriptor.h:104-114 (as_double)
def asDouble {T D : Type} (cast : T → D) (a : List T) : List D := a.map cast

/-- The full statement: every legal use of descriptors as values is safe and each descriptor keeps its own elements. -/
def C139_statement (T : Type) : Prop :=
  ∀ (ops : List (DOp T)) (v : List (Option (List T))), vRun [] ops = some v →
    ∃ s, (DState.mk [] []).run ops = some s ∧ ∀ x a, v[x]? = some (some a) → s.elems x = some a

/-- It is false: a copy and its original delete the same array. -/
theorem C139_refuted : ¬ C139_statement Nat := by
  intro h
  obtain ⟨s, hs, _⟩ := h [.new [1, 2], .copy 0, .destroy 0, .destroy 1] [none, none] rfl
  cases hs

def NoCopy {T : Type} (ops : List (DOp T)) : Prop := ∀ x, DOp.copy x ∉ ops

structure DRel {T : Type} (s : DState T) (v : List (Option (List T))) : Prop where
  len : s.objs.length = v.length
  hlen : s.heap.length = s.objs.length
  rel : ∀ x : Nat, match v[x]? with
    | some (some a) => s.objs[x]? = some (some (DD.mk x a.length)) ∧ s.heap[x]? = some (some a)
    | some none => s.objs[x]? = some none
    | none => True

theorem drel_step {T : Type} {s : DState T} {v v' : List (Option (List T))} (h : DRel s v) (op : DOp T) (hop : ∀ x, op ≠ .copy x) (hv : vStep v op = some v') :
    ∃ s', s.step op = some s' ∧ DRel s' v' := by
  cases op with
  | new c =>
    simp only [vStep, Option.some.injEq] at hv
    subst hv
    refine ⟨_, rfl, ⟨by simp [h.len], by simp [h.hlen], ?_⟩⟩
    intro x
    rcases Nat.lt_trichotomy x v.length with hx | hx | hx
    · rw [List.getElem?_append_left hx]
      have := h.rel x
      cases hvx : v[x]? with
      | none => trivial
      | some o =>
        cases o with
        | none =>
          rw [hvx] at this
          simp only at this ⊢
          rw [List.getElem?_append_left (by rw [h.len]; exact hx)]; exact this
        | some a =>
          rw [hvx] at this
          simp only at this ⊢
          rw [List.getElem?_append_left (by rw [h.len]; exact hx), List.getElem?_append_left (by rw [h.hlen, h.len]; exact hx)]
          exact this
    · subst hx
      simp [h.hlen, h.len]
    · rw [List.getElem?_eq_none (by simp; omega)]
      trivial
  | copy x => exact absurd rfl (hop x)
  | write x i val =>
    simp only [vStep] at hv
    split at hv
    · rename_i a ha
      split at hv
      · rename_i hi
        cases hv
        have hr := h.rel x
        rw [ha] at hr
        simp only at hr
        refine ⟨{ s with heap := s.heap.set x (some (a.set i val)) }, by simp [DState.step, hr.1, hr.2, hi], ⟨by simp [h.len], by simp [h.hlen], ?_⟩⟩
        intro y
        by_cases e : y = x
        · subst e
          obtain ⟨hx, _⟩ := List.getElem?_eq_some_iff.1 ha
          rw [List.getElem?_set_self hx]
          simp only
          exact ⟨by simpa using hr.1, List.getElem?_set_self (by rw [h.hlen, h.len]; exact hx)⟩
        · rw [List.getElem?_set_ne (Ne.symm e), List.getElem?_set_ne (Ne.symm e)]
          exact h.rel y
      · cases hv
    · cases hv
  | destroy x =>
    simp only [vStep] at hv
    split at hv
    · rename_i a ha
      cases hv
      have hr := h.rel x
      rw [ha] at hr
      simp only at hr
      refine ⟨⟨s.heap.set x none, s.objs.set x none⟩, by simp [DState.step, hr.1, hr.2], ⟨by simp [h.len], by simp [h.hlen], ?_⟩⟩
      intro y
      by_cases e : y = x
      · subst e
        obtain ⟨hx, _⟩ := List.getElem?_eq_some_iff.1 ha
        rw [List.getElem?_set_self hx]
        exact List.getElem?_set_self (by rw [h.len]; exact hx)
      · rw [List.getElem?_set_ne (Ne.symm e), List.getElem?_set_ne (Ne.symm e), List.getElem?_set_ne (Ne.symm e)]
        exact h.rel y
    · cases hv

theorem drel_run {T : Type} : ∀ (ops : List (DOp T)) (s : DState T) (v v' : List (Option (List T))), NoCopy ops → DRel s v → vRun v ops = some v' →
    ∃ s', s.run ops = some s' ∧ DRel s' v' := by
  intro ops
  induction ops with
  | nil => intro s v v' _ h hv; cases hv; exact ⟨s, rfl, h⟩
  | cons op ops ih =>
    intro s v v' hn h hv
    rw [vRun, Option.bind_eq_some_iff] at hv
    obtain ⟨v1, hv1, hv2⟩ := hv
    obtain ⟨s1, hs1, h1⟩ := drel_step h op (fun x e => hn x (by simp [e])) hv1
    obtain ⟨s2, hs2, h2⟩ := ih s1 v1 v' (fun x hm => hn x (by simp [hm])) h1 hv2
    exact ⟨s2, by rw [DState.run, hs1]; exact hs2, h2⟩

/-- C139 without copies: every legal use is safe, and each descriptor has exactly the elements written to it. -/
theorem C139_descriptors_partial {T : Type} (ops : List (DOp T)) (hn : NoCopy ops) (v : List (Option (List T))) (hv : vRun [] ops = some v) :
    ∃ s, (DState.mk [] []).run ops = some s ∧ ∀ x a, v[x]? = some (some a) → s.elems x = some a := by
  obtain ⟨s, hs, h⟩ := drel_run ops ⟨[], []⟩ [] v hn ⟨rfl, rfl, by simp⟩ hv
  refine ⟨s, hs, ?_⟩
  intro x a hx
  have hr := h.rel x
  rw [hx] at hr
  simp only at hr
  unfold DState.elems
  simp [hr.1, hr.2]

/-- `as_bytes` has `num_bytes` bytes and holds the representation of element `i` at the offset `i * sizeof( T )`; `as_double` holds the
    converted elements in their order. -/
theorem C139_views {T D : Type} (k : Nat) (repr : T → List UInt8) (hk : ∀ t, (repr t).length = k) (cast : T → D) (a : List T) :
    (asBytes repr a).length = numBytes k a ∧ (∀ (i : Nat) (t : T), a[i]? = some t → ((asBytes repr a).drop (i * k)).take k = repr t) ∧
    (asDouble cast a).length = a.length ∧ (∀ (i : Nat) (t : T), a[i]? = some t → (asDouble cast a)[i]? = some (cast t)) := by
  refine ⟨?_, ?_, by simp [asDouble], ?_⟩
  · unfold asBytes numBytes
    induction a with
    | nil => simp
    | cons t a ih => simp only [List.map_cons, List.flatten_cons, List.length_append, ih, hk, List.length_cons]; ring
  · unfold asBytes
    induction a with
    | nil => intro i t h; simp at h
    | cons t a ih =>
      intro i u h
      cases i with
      | zero =>
        simp only [List.getElem?_cons_zero, Option.some.injEq] at h
        subst h
        simp only [List.map_cons, List.flatten_cons, Nat.zero_mul, List.drop_zero]
        rw [List.take_append_of_le_length (by rw [hk])]
        rw [List.take_of_length_le (by rw [hk])]
      | succ i =>
        simp only [List.getElem?_cons_succ] at h
        simp only [List.map_cons, List.flatten_cons]
        have e : (i + 1) * k = (repr t).length + i * k := by rw [hk]; ring
        rw [e, List.drop_append]
        simp only [Nat.add_sub_cancel_left]
        rw [List.drop_of_length_le (by omega), List.nil_append]
        exact ih i u h
  · intro i t h
    unfold asDouble
    simp [h]

example : vRun ([] : List (Option (List Nat))) [.new [0, 0], .new [5], .write 0 1 7, .destroy 1] = some [some [0, 7], none] ∧
    NoCopy ([.new [0, 0], .new [5], .write 0 1 7, .destroy 1] : List (DOp Nat)) := by
  refine ⟨by decide, ?_⟩
  intro x h
  simp at h

/-! ## C140: interval timers -/

/-- `wall_timer` and `cpu_timer`; clock readings in seconds. -/
-- models: vital/util/wall_timer.h.in:53-122, vital/util/cpu_timer.h.in:58-125, vital/util/timer.h:52-118
structure Timer where
  active : Bool
  start : ℚ
  stop : ℚ

-- models: vital/util/timer.h:55-57, vital/util/cpu_timer.h.in:62-65 (both clocks begin at zero)
def Timer.new : Timer := ⟨false, 0, 0⟩

/-- A call at the clock reading `t`. -/
inductive TOp
  | start (t : ℚ)
  | stop (t : ℚ)

-- models: vital/util/wall_timer.h.in:69-86, vital/util/cpu_timer.h.in:77-93 (start, stop)
def Timer.step (s : Timer) : TOp → Timer
  | .start t => { s with active := true, start := t }
  | .stop t => { s with active := false, stop := t }

def Timer.run (s : Timer) (ops : List TOp) : Timer := ops.foldl Timer.step s

-- models: vital/util/wall_timer.h.in:97-110, vital/util/cpu_timer.h.in:104-117 (elapsed at clock reading `now`)
def Timer.elapsed (s : Timer) (now : ℚ) : ℚ := if s.active then now - s.start else s.stop - s.start

/-- The calls after the last start: no start among them. -/
def OnlyStops (ops : List TOp) : Prop := ∀ t, TOp.start t ∉ ops

theorem timer_stops : ∀ (ops : List TOp) (s : Timer), OnlyStops ops → (s.run ops).start = s.start ∧
    (ops = [] → s.run ops = s) ∧ (∀ pre t, ops = pre ++ [.stop t] → (s.run ops).active = false ∧ (s.run ops).stop = t) := by
  intro ops
  induction ops with
  | nil => intro s _; exact ⟨rfl, fun _ => rfl, by intro pre t h; simp at h⟩
  | cons op ops ih =>
    intro s h
    cases op with
    | start t => exact absurd (by simp) (h t)
    | stop t =>
      obtain ⟨i1, i2, i3⟩ := ih (s.step (.stop t)) (fun u hu => h u (by simp [hu]))
      refine ⟨i1, by simp, ?_⟩
      intro pre u e
      cases pre with
      | nil =>
        simp only [List.nil_append, List.cons.injEq, TOp.stop.injEq] at e
        obtain ⟨rfl, rfl⟩ := e
        exact ⟨rfl, rfl⟩
      | cons p pre =>
        simp only [List.cons_append, List.cons.injEq] at e
        exact i3 pre u e.2

/-- C140: after any history whose last start was at `t0`, a timer that has not been stopped since is active and shows the time since
    `t0`; one that has is inactive and shows the time from `t0` to the last stop, whenever it is asked. -/
theorem C140_timer (before after : List TOp) (t0 now : ℚ) (h : OnlyStops after) :
    let s := Timer.new.run (before ++ .start t0 :: after)
    (after = [] → s.active = true ∧ s.elapsed now = now - t0) ∧
    (∀ pre t1, after = pre ++ [.stop t1] → s.active = false ∧ s.elapsed now = t1 - t0) := by
  intro s
  have hs : s = ((Timer.new.run before).step (.start t0)).run after := by simp [s, Timer.run]
  obtain ⟨h1, h2, h3⟩ := timer_stops after ((Timer.new.run before).step (.start t0)) h
  rw [hs]
  refine ⟨?_, ?_⟩
  · intro e
    rw [h2 e]
    simp [Timer.step, Timer.elapsed]
  · intro pre t1 e
    obtain ⟨ha, hb⟩ := h3 pre t1 e
    refine ⟨ha, ?_⟩
    unfold Timer.elapsed
    rw [ha, hb, h1]
    rfl

/-- With a clock that does not go back, no elapsed time is negative. -/
theorem C140_nonneg (before after : List TOp) (t0 now : ℚ) (h : OnlyStops after) (hnow : t0 ≤ now) (hmono : ∀ t, TOp.stop t ∈ after → t0 ≤ t) :
    0 ≤ (Timer.new.run (before ++ .start t0 :: after)).elapsed now := by
  obtain ⟨h1, h2⟩ := C140_timer before after t0 now h
  rcases List.eq_nil_or_concat after with e | ⟨pre, op, e⟩
  · rw [(h1 e).2]; exact sub_nonneg.2 hnow
  · rw [List.concat_eq_append] at e
    cases op with
    | start t => exact absurd (by rw [e]; simp) (h t)
    | stop t => rw [(h2 pre t e).2]; exact sub_nonneg.2 (hmono t (by rw [e]; simp))

/-- A timer that was never touched shows zero. -/
theorem C140_fresh (now : ℚ) : Timer.new.elapsed now = 0 ∧ Timer.new.active = false := by simp [Timer.new, Timer.elapsed]

example : (Timer.new.run [.stop 3, .start 5, .stop 7, .stop 9]).elapsed 100 = 4 ∧ (Timer.new.run [.start 5]).elapsed 8 = 3 := by
  constructor <;> norm_num [Timer.run, Timer.step, Timer.elapsed, Timer.new]

end Vital.Share
