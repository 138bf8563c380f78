import Verif.Basic.Str
/-
  vital/kwiversys/auto_ptr.hxx.in: ownership of objects by auto_ptr variables; property C247.
-/
namespace Vital.Sys.Auto

/-- The memory: which objects exist (numbers above 0; 0 is the null pointer), and `x_` of every auto_ptr variable that exists. -/
structure St where
  alive : Nat → Bool
  vars : Nat → Option Nat
  next : Nat

def St.init : St := ⟨fun _ => false, fun _ => none, 1⟩

def put {α : Type} (f : Nat → α) (a : Nat) (v : α) : Nat → α := fun x => if x = a then v else f x

/-- `delete p`: nothing for null; deleting what does not exist is undefined. -/
def delete (s : St) (p : Nat) : Option St :=
  if p = 0 then some s else if s.alive p = true then some { s with alive := put s.alive p false } else none

-- models: vital/kwiversys/auto_ptr.hxx.in:157-162 (release): the pointer and the state after it
def release (s : St) (v : Nat) : Option (Nat × St) := (s.vars v).map (fun x => (x, { s with vars := put s.vars v (some 0) }))

-- models: vital/kwiversys/auto_ptr.hxx.in:166-174 (reset)
def reset (s : St) (v p : Nat) : Option St :=
  match s.vars v with
  | none => none
  | some x => if x ≠ p then (delete s x).map (fun s => { s with vars := put s.vars v (some p) }) else some s

/-- What a program does with objects and variables. -/
inductive Op where
  | newObject
  | construct (v p : Nat)
  | copy (v w : Nat)
  | assign (v w : Nat)
  | release (v : Nat)
  | reset (v p : Nat)
  | destroy (v : Nat)
  | use (v : Nat)
  | deleteRaw (p : Nat)

-- models: vital/kwiversys/auto_ptr.hxx.in:71-188 (the members; the conversions and auto_ptr_ref pass the pointer through release and the
-- constructor, which is `copy`); `none` is undefined behaviour; newObject and deleteRaw are the caller's new and delete
def exec (s : St) : Op → Option St
  | .newObject => some { s with alive := put s.alive s.next true, next := s.next + 1 }
  | .construct v p => some { s with vars := put s.vars v (some p) }
  | .copy v w => (release s w).map (fun r => { r.2 with vars := put r.2.vars v (some r.1) })
  | .assign v w => (release s w).bind (fun r => reset r.2 v r.1)
  | .release v => (release s v).map (·.2)
  | .reset v p => reset s v p
  | .destroy v => (s.vars v).bind (fun x => (delete s x).map (fun s => { s with vars := put s.vars v none }))
  | .use v => (s.vars v).bind (fun x => if x ≠ 0 ∧ s.alive x = true then some s else none)
  | .deleteRaw p => delete s p

def run : St → List Op → Option St
  | s, [] => some s
  | s, o :: l => (exec s o).bind (fun s => run s l)

/-! ### Specification: every object has one owner -/

inductive Owner where
  | none
  | caller
  | var (v : Nat)
deriving DecidableEq

/-- Who owns each object (`none`: it does not exist), which variables exist, how many objects were made. -/
structure Own where
  owner : Nat → Owner
  exist : Nat → Bool
  made : Nat

def Own.init : Own := ⟨fun _ => .none, fun _ => false, 0⟩

/-- The objects of one owner go to another (`none`: they are deleted). -/
def give (o : Own) (a b : Owner) : Own := { o with owner := fun p => if o.owner p = a then b else o.owner p }

/-- An object changes its owner. -/
def move (o : Own) (p : Nat) (b : Owner) : Own := { o with owner := fun q => if q = p ∧ p ≠ 0 then b else o.owner q }

/-- A variable holds an object (0: holds none). -/
def Holds (o : Own) (v p : Nat) : Prop := o.exist v = true ∧ ((p = 0 ∧ ∀ q, o.owner q ≠ .var v) ∨ (p ≠ 0 ∧ o.owner p = .var v))

/-- The meaning of the operations: transfer of ownership, and deletion of what an owner gives up. -/
inductive Step : Own → Op → Own → Prop where
  | new {o : Own} : Step o .newObject { o with owner := put o.owner (o.made + 1) .caller, made := o.made + 1 }
  | construct {o : Own} {v p : Nat} : o.exist v = false → (p = 0 ∨ o.owner p = .caller) →
      Step o (.construct v p) (move { o with exist := put o.exist v true } p (.var v))
  | copy {o : Own} {v w : Nat} : o.exist v = false → o.exist w = true →
      Step o (.copy v w) (give { o with exist := put o.exist v true } (.var w) (.var v))
  | assign {o : Own} {v w : Nat} : o.exist v = true → o.exist w = true → v ≠ w → Step o (.assign v w) (give (give o (.var v) .none) (.var w) (.var v))
  | assignSelf {o : Own} {v : Nat} : o.exist v = true → Step o (.assign v v) o
  | release {o : Own} {v : Nat} : o.exist v = true → Step o (.release v) (give o (.var v) .caller)
  | reset {o : Own} {v p : Nat} : o.exist v = true → (p = 0 ∨ o.owner p = .caller) → Step o (.reset v p) (move (give o (.var v) .none) p (.var v))
  | resetSame {o : Own} {v p : Nat} : Holds o v p → Step o (.reset v p) o
  | destroy {o : Own} {v : Nat} : o.exist v = true → Step o (.destroy v) { give o (.var v) .none with exist := put o.exist v false }
  | use {o : Own} {v p : Nat} : Holds o v p → p ≠ 0 → Step o (.use v) o
  | deleteRaw {o : Own} {p : Nat} : (p = 0 ∨ o.owner p = .caller) → Step o (.deleteRaw p) (move o p .none)

inductive Steps : Own → List Op → Own → Prop where
  | nil {o : Own} : Steps o [] o
  | cons {o o' o'' : Own} {a : Op} {l : List Op} : Step o a o' → Steps o' l o'' → Steps o (a :: l) o''

/-- The memory is as the owners say: exactly the owned objects exist, and a variable points to what it owns. -/
structure Agrees (s : St) (o : Own) : Prop where
  alive : ∀ p, s.alive p = true ↔ o.owner p ≠ .none
  vars : ∀ v, o.exist v = true ↔ s.vars v ≠ none
  own : ∀ v p, o.owner p = .var v ↔ s.vars v = some p ∧ p ≠ 0
  zero : o.owner 0 = .none
  next : s.next = o.made + 1
  fresh : ∀ p, o.made < p → o.owner p = .none

theorem agrees_init : Agrees .init .init where
  alive := by intro p; simp [St.init, Own.init]
  vars := by intro v; simp [St.init, Own.init]
  own := by intro v p; simp [St.init, Own.init]
  zero := rfl
  next := rfl
  fresh := by intro p _; rfl

theorem exists_var {s : St} {o : Own} (h : Agrees s o) {v : Nat} (hv : o.exist v = true) : ∃ x, s.vars v = some x := by
  have := (h.vars v).1 hv
  cases hx : s.vars v with
  | none => exact absurd hx this
  | some x => exact ⟨x, rfl⟩

theorem holds_iff {s : St} {o : Own} (h : Agrees s o) {v p : Nat} : Holds o v p ↔ s.vars v = some p := by
  constructor
  · rintro ⟨h1, ⟨rfl, h2⟩ | ⟨h2, h3⟩⟩
    · obtain ⟨x, hx⟩ := exists_var h h1
      by_cases hx0 : x = 0
      · rw [hx, hx0]
      · exact absurd ((h.own v x).2 ⟨hx, hx0⟩) (h2 x)
    · exact ((h.own v p).1 h3).1
  · intro hx
    refine ⟨(h.vars v).2 (by rw [hx]; simp), ?_⟩
    by_cases hp : p = 0
    · left
      refine ⟨hp, ?_⟩
      intro q hq
      have := (h.own v q).1 hq
      rw [hx, hp] at this
      exact this.2 (Option.some.inj this.1).symm
    · exact .inr ⟨hp, (h.own v p).2 ⟨hx, hp⟩⟩

/-- Deleting what a variable holds (or null). -/
theorem delete_held {s : St} {o : Own} (h : Agrees s o) {v x : Nat} (hx : s.vars v = some x) : ∃ s', delete s x = some s' ∧
    s'.vars = s.vars ∧ s'.next = s.next ∧ ∀ p, s'.alive p = true ↔ (give o (.var v) .none).owner p ≠ .none := by
  unfold delete
  by_cases h0 : x = 0
  · rw [if_pos h0]
    refine ⟨s, rfl, rfl, rfl, ?_⟩
    intro p
    rw [h.alive p]
    simp only [give]
    by_cases hp : o.owner p = .var v
    · have := (h.own v p).1 hp
      rw [hx, h0] at this
      exact absurd (Option.some.inj this.1).symm this.2
    · rw [if_neg hp]
  · rw [if_neg h0]
    have hown : o.owner x = .var v := (h.own v x).2 ⟨hx, h0⟩
    have ha : s.alive x = true := (h.alive x).2 (by rw [hown]; simp)
    rw [if_pos ha]
    refine ⟨_, rfl, rfl, rfl, ?_⟩
    intro p
    simp only [put, give]
    by_cases hp : p = x
    · subst hp
      simp [hown]
    · rw [if_neg hp]
      have : o.owner p ≠ .var v := by
        intro e
        have := (h.own v p).1 e
        rw [hx] at this
        exact hp (Option.some.inj this.1).symm
      rw [if_neg this]
      exact h.alive p

/-- Deleting what the caller owns (or null). -/
theorem delete_raw {s : St} {o : Own} (h : Agrees s o) {p : Nat} (hp : p = 0 ∨ o.owner p = .caller) : ∃ s', delete s p = some s' ∧
    s'.vars = s.vars ∧ s'.next = s.next ∧ ∀ q, s'.alive q = true ↔ (move o p .none).owner q ≠ .none := by
  unfold delete
  by_cases h0 : p = 0
  · rw [if_pos h0]
    refine ⟨s, rfl, rfl, rfl, ?_⟩
    intro q
    simp only [move]
    rw [if_neg (fun h => h.2 h0)]
    exact h.alive q
  · rw [if_neg h0]
    have ho : o.owner p = .caller := hp.resolve_left h0
    rw [if_pos ((h.alive p).2 (by rw [ho]; simp))]
    refine ⟨_, rfl, rfl, rfl, ?_⟩
    intro q
    simp only [put, move]
    by_cases hq : q = p
    · simp [hq, h0]
    · simp only [hq, if_false, false_and]
      exact h.alive q

/-- One operation does what the ownership rules say. -/
theorem step_agrees {s : St} {o o' : Own} {a : Op} (h : Agrees s o) (hs : Step o a o') : ∃ s', exec s a = some s' ∧ Agrees s' o' := by
  cases hs with
  | new =>
    refine ⟨_, rfl, ?_⟩
    have hf := h.fresh (o.made + 1) (by omega)
    refine ⟨?_, h.vars, ?_, ?_, ?_, ?_⟩
    · intro p
      simp only [put, h.next]
      by_cases hp : p = o.made + 1
      · simp [hp]
      · simp only [hp, if_false]; exact h.alive p
    · intro v p
      simp only [put]
      by_cases hp : p = o.made + 1
      · simp only [hp, if_true]
        constructor
        · intro e; cases e
        · rintro ⟨e1, e2⟩
          have := (h.own v _).2 ⟨e1, e2⟩
          rw [hf] at this
          cases this
      · simp only [hp, if_false]; exact h.own v p
    · simp only [put]
      rw [if_neg (by omega)]
      exact h.zero
    · simp only [h.next]
    · intro p hp
      simp only [put] at hp ⊢
      rw [if_neg (by omega)]
      exact h.fresh p (by omega)
  | @construct v p hv hp =>
    refine ⟨_, rfl, ?_⟩
    have hnone : s.vars v = none := by
      cases hx : s.vars v with
      | none => rfl
      | some x => exact absurd ((h.vars v).2 (by rw [hx]; simp)) (by simp [hv])
    refine ⟨?_, ?_, ?_, ?_, h.next, ?_⟩
    · intro q
      simp only [move]
      by_cases hq : q = p ∧ p ≠ 0
      · rw [if_pos hq, h.alive, hq.1, hp.resolve_left hq.2]
        simp
      · rw [if_neg hq]; exact h.alive q
    · intro u
      simp only [put, move]
      by_cases hu : u = v
      · simp [hu]
      · simp only [hu, if_false]; exact h.vars u
    · intro u q
      simp only [put, move]
      by_cases hu : u = v
      · subst hu
        simp only [if_true]
        by_cases hq : q = p ∧ p ≠ 0
        · rw [if_pos hq]; simp [hq.1, hq.2]
        · rw [if_neg hq, h.own, hnone]
          constructor
          · rintro ⟨e, _⟩; cases e
          · rintro ⟨e1, e2⟩
            have e1 := Option.some.inj e1
            exact absurd ⟨e1.symm, by rw [e1]; exact e2⟩ hq
      · simp only [hu, if_false]
        by_cases hq : q = p ∧ p ≠ 0
        · rw [if_pos hq]
          constructor
          · intro e; cases e; exact absurd rfl hu
          · intro e
            have := (h.own u q).2 e
            rw [hq.1, hp.resolve_left hq.2] at this
            cases this
        · rw [if_neg hq]; exact h.own u q
    · simp only [move]
      rw [if_neg (fun h => h.2 h.1.symm)]
      exact h.zero
    · intro q hq
      simp only [move] at hq ⊢
      by_cases hqp : q = p ∧ p ≠ 0
      · have := h.fresh q hq
        rw [hqp.1, hp.resolve_left hqp.2] at this
        cases this
      · rw [if_neg hqp]; exact h.fresh q hq
  | @copy v w hv hw =>
    obtain ⟨x, hx⟩ := exists_var h hw
    have hvw : v ≠ w := by rintro rfl; rw [hv] at hw; cases hw
    refine ⟨_, by simp only [exec, release, hx, Option.map_some]; rfl, ?_⟩
    have hnone : s.vars v = none := by
      cases hx : s.vars v with
      | none => rfl
      | some x => exact absurd ((h.vars v).2 (by rw [hx]; simp)) (by simp [hv])
    refine ⟨?_, ?_, ?_, ?_, h.next, ?_⟩
    · intro q
      simp only [give]
      by_cases hq : o.owner q = .var w
      · rw [if_pos hq, h.alive, hq]; simp
      · rw [if_neg hq]; exact h.alive q
    · intro u
      simp only [put, give]
      by_cases hu : u = v
      · simp [hu]
      · by_cases hu2 : u = w
        · subst hu2
          simp [hu, hw]
        · simp only [hu, hu2, if_false]; exact h.vars u
    · intro u q
      simp only [put, give]
      by_cases hq : o.owner q = .var w
      · rw [if_pos hq]
        have hqx := (h.own w q).1 hq
        rw [hx] at hqx
        have e := Option.some.inj hqx.1
        by_cases hu : u = v
        · simp only [hu, if_true, e]
          simp [hqx.2]
        · simp only [hu, if_false]
          constructor
          · intro e; cases e; exact absurd rfl hu
          · rintro ⟨e1, e2⟩
            by_cases hu2 : u = w
            · simp only [hu2, if_true] at e1
              exact absurd (Option.some.inj e1).symm e2
            · simp only [hu2, if_false] at e1
              have := (h.own u q).2 ⟨e1, e2⟩
              rw [hq] at this
              cases this
              exact absurd rfl hu2
      · rw [if_neg hq]
        by_cases hu : u = v
        · subst hu
          simp only [if_true]
          constructor
          · intro e
            have := (h.own u q).1 e
            rw [hnone] at this
            cases this.1
          · rintro ⟨e1, e2⟩
            exact absurd ((h.own w q).2 ⟨by rw [hx, ← e1], e2⟩) hq
        · simp only [hu, if_false]
          by_cases hu2 : u = w
          · subst hu2
            simp only [if_true]
            constructor
            · intro e; exact absurd e hq
            · rintro ⟨e1, e2⟩; exact absurd (Option.some.inj e1).symm e2
          · simp only [hu2, if_false]; exact h.own u q
    · simp only [give, h.zero]
      simp
    · intro q hq
      simp only [give] at hq ⊢
      rw [h.fresh q hq]
      simp
  | @assign v w hv hw hvw =>
    obtain ⟨x, hx⟩ := exists_var h hw
    obtain ⟨y, hy⟩ := exists_var h hv
    -- what the variables hold is different, unless both hold nothing
    have hxy : x ≠ 0 → y ≠ x := by
      intro h0 e
      have h1 := (h.own w x).2 ⟨hx, h0⟩
      have h2 := (h.own v x).2 ⟨by rw [hy, e], h0⟩
      rw [h1] at h2
      cases h2
      exact hvw rfl
    obtain ⟨s', hd, d1, d2, d3⟩ := delete_held h hy
    -- the state after the assignment
    have hex : exec s (.assign v w) = some { alive := s'.alive, vars := put (put s.vars w (some 0)) v (some x), next := s.next } := by
      simp only [exec, release, hx, Option.map_some, Option.bind_some, reset]
      have : put s.vars w (some 0) v = some y := by simp only [put]; rw [if_neg hvw]; exact hy
      rw [this]
      simp only
      by_cases hyx : y = x
      · have hx0 : x = 0 := by
          by_cases hx0 : x = 0
          · exact hx0
          · exact absurd hyx (hxy hx0)
        rw [if_neg (fun h => h hyx)]
        have hs' : s' = s := by
          rw [hyx, hx0] at hd
          simp [delete] at hd
          exact hd.symm
        rw [hs']
        congr 2
        funext u
        simp only [put]
        by_cases hu : u = v
        · simp only [hu, if_true]
          rw [if_neg hvw, hy, hyx]
        · simp only [hu, if_false]
      · rw [if_pos hyx]
        have : delete { s with vars := put s.vars w (some 0) } y = some { alive := s'.alive, vars := put s.vars w (some 0), next := s.next } := by
          unfold delete at hd ⊢
          by_cases hy0 : y = 0
          · rw [if_pos hy0] at hd ⊢
            cases hd
            rfl
          · rw [if_neg hy0] at hd ⊢
            simp only
            by_cases ha : s.alive y = true
            · rw [if_pos ha] at hd ⊢
              cases hd
              rfl
            · rw [if_neg ha] at hd
              cases hd
        rw [this]
        rfl
    refine ⟨_, hex, ?_⟩
    refine ⟨?_, ?_, ?_, ?_, h.next, ?_⟩
    · intro q
      rw [d3 q]
      simp only [give]
      by_cases hq : o.owner q = .var v
      · simp [hq]
      · simp only [hq, if_false]
        by_cases hq2 : o.owner q = .var w
        · simp [hq2]
        · simp only [hq2, if_false]
    · intro u
      simp only [put, give]
      by_cases hu : u = v
      · simp [hu, hv]
      · by_cases hu2 : u = w
        · subst hu2
          simp [hu, hw]
        · simp only [hu, hu2, if_false]; exact h.vars u
    · intro u q
      simp only [put, give]
      by_cases hq : o.owner q = .var v
      · simp only [hq, if_true]
        rw [if_neg (by simp)]
        have hqy := (h.own v q).1 hq
        rw [hy] at hqy
        have e := Option.some.inj hqy.1
        constructor
        · intro e; cases e
        · rintro ⟨e1, e2⟩
          by_cases hu : u = v
          · simp only [hu, if_true] at e1
            have := Option.some.inj e1
            exact absurd (e.trans this.symm) (hxy (by rw [this]; exact e2))
          · simp only [hu, if_false] at e1
            by_cases hu2 : u = w
            · simp only [hu2, if_true] at e1
              exact absurd (Option.some.inj e1).symm e2
            · simp only [hu2, if_false] at e1
              have := (h.own u q).2 ⟨e1, e2⟩
              rw [hq] at this
              cases this
              exact absurd rfl hu
      · simp only [hq, if_false]
        by_cases hq2 : o.owner q = .var w
        · rw [if_pos hq2]
          have hqx := (h.own w q).1 hq2
          rw [hx] at hqx
          have e := Option.some.inj hqx.1
          by_cases hu : u = v
          · simp only [hu, if_true, e]
            simp [hqx.2]
          · simp only [hu, if_false]
            constructor
            · intro e; cases e; exact absurd rfl hu
            · rintro ⟨e1, e2⟩
              by_cases hu2 : u = w
              · simp only [hu2, if_true] at e1
                exact absurd (Option.some.inj e1).symm e2
              · simp only [hu2, if_false] at e1
                have := (h.own u q).2 ⟨e1, e2⟩
                rw [hq2] at this
                cases this
                exact absurd rfl hu2
        · rw [if_neg hq2]
          by_cases hu : u = v
          · subst hu
            simp only [if_true]
            constructor
            · intro e; exact absurd e hq
            · rintro ⟨e1, e2⟩
              exact absurd ((h.own w q).2 ⟨by rw [hx, ← e1], e2⟩) hq2
          · simp only [hu, if_false]
            by_cases hu2 : u = w
            · subst hu2
              simp only [if_true]
              constructor
              · intro e; exact absurd e hq2
              · rintro ⟨e1, e2⟩; exact absurd (Option.some.inj e1).symm e2
            · simp only [hu2, if_false]; exact h.own u q
    · simp [give, h.zero]
    · intro q hq
      simp only [give] at hq ⊢
      simp [h.fresh q hq]
  | @assignSelf v hv =>
    obtain ⟨x, hx⟩ := exists_var h hv
    refine ⟨s, ?_, h⟩
    simp only [exec, release, hx, Option.map_some, Option.bind_some, reset, put, if_true]
    by_cases hx0 : x = 0
    · subst hx0
      rw [if_neg (fun h => h rfl)]
      congr 1
      obtain ⟨al, vs, nx⟩ := s
      simp only [St.mk.injEq, true_and, and_true]
      funext u
      by_cases hu : u = v
      · simp only [put, hu, if_true]; exact hx.symm
      · simp only [put, hu, if_false]
    · rw [if_pos (fun e => hx0 e.symm)]
      simp only [delete, if_true, Option.map_some]
      congr 1
      obtain ⟨al, vs, nx⟩ := s
      simp only [St.mk.injEq, true_and, and_true]
      funext u
      by_cases hu : u = v
      · simp only [put, hu, if_true]; exact hx.symm
      · simp only [put, hu, if_false]
  | @release v hv =>
    obtain ⟨x, hx⟩ := exists_var h hv
    refine ⟨_, by simp only [exec, release, hx, Option.map_some]; rfl, ?_⟩
    refine ⟨?_, ?_, ?_, ?_, h.next, ?_⟩
    · intro q
      simp only [give]
      by_cases hq : o.owner q = .var v
      · rw [if_pos hq, h.alive, hq]; simp
      · rw [if_neg hq]; exact h.alive q
    · intro u
      simp only [put, give]
      by_cases hu : u = v
      · simp [hu, hv]
      · simp only [hu, if_false]; exact h.vars u
    · intro u q
      simp only [put, give]
      by_cases hq : o.owner q = .var v
      · rw [if_pos hq]
        constructor
        · intro e; cases e
        · rintro ⟨e1, e2⟩
          by_cases hu : u = v
          · simp only [hu, if_true] at e1
            exact absurd (Option.some.inj e1).symm e2
          · simp only [hu, if_false] at e1
            have := (h.own u q).2 ⟨e1, e2⟩
            rw [hq] at this
            cases this
            exact absurd rfl hu
      · rw [if_neg hq]
        by_cases hu : u = v
        · subst hu
          simp only [if_true]
          constructor
          · intro e; exact absurd e hq
          · rintro ⟨e1, e2⟩; exact absurd (Option.some.inj e1).symm e2
        · simp only [hu, if_false]; exact h.own u q
    · simp [give, h.zero]
    · intro q hq
      simp only [give] at hq ⊢
      simp [h.fresh q hq]
  | @reset v p hv hp =>
    obtain ⟨y, hy⟩ := exists_var h hv
    obtain ⟨s', hd, d1, d2, d3⟩ := delete_held h hy
    have hyp : y ≠ 0 → y ≠ p := by
      intro h0 e
      have h1 := (h.own v y).2 ⟨hy, h0⟩
      rw [e] at h1 h0
      rw [hp.resolve_left h0] at h1
      cases h1
    have hex : exec s (.reset v p) = some { alive := s'.alive, vars := put s.vars v (some p), next := s.next } := by
      simp only [exec, reset, hy]
      by_cases e : y = p
      · have hy0 : y = 0 := by
          by_cases hy0 : y = 0
          · exact hy0
          · exact absurd e (hyp hy0)
        rw [if_neg (fun h => h e)]
        have hs' : s' = s := by
          rw [hy0] at hd
          simp [delete] at hd
          exact hd.symm
        rw [hs']
        congr 1
        obtain ⟨al, vs, nx⟩ := s
        simp only [St.mk.injEq, true_and, and_true]
        funext u
        simp only [put]
        by_cases hu : u = v
        · simp only [hu, if_true]; rw [← e]; exact hy
        · simp only [hu, if_false]
      · rw [if_pos e, hd, Option.map_some, d1, d2]
    refine ⟨_, hex, ?_⟩
    refine ⟨?_, ?_, ?_, ?_, h.next, ?_⟩
    · intro q
      rw [d3 q]
      simp only [move]
      by_cases hq : q = p ∧ p ≠ 0
      · rw [if_pos hq]
        simp only [give]
        rw [hq.1, hp.resolve_left hq.2]
        simp
      · rw [if_neg hq]
    · intro u
      simp only [put, move, give]
      by_cases hu : u = v
      · simp [hu, hv]
      · simp only [hu, if_false]; exact h.vars u
    · intro u q
      simp only [put, move, give]
      by_cases hq : q = p ∧ p ≠ 0
      · rw [if_pos hq]
        by_cases hu : u = v
        · simp [hu, hq.1, hq.2]
        · simp only [hu, if_false]
          constructor
          · intro e; cases e; exact absurd rfl hu
          · intro e
            have := (h.own u q).2 e
            rw [hq.1, hp.resolve_left hq.2] at this
            cases this
      · rw [if_neg hq]
        by_cases hqv : o.owner q = .var v
        · rw [if_pos hqv]
          constructor
          · intro e; cases e
          · rintro ⟨e1, e2⟩
            by_cases hu : u = v
            · simp only [hu, if_true] at e1
              have e1 := Option.some.inj e1
              exact absurd ⟨e1.symm, by rw [e1]; exact e2⟩ hq
            · simp only [hu, if_false] at e1
              have := (h.own u q).2 ⟨e1, e2⟩
              rw [hqv] at this
              cases this
              exact absurd rfl hu
        · rw [if_neg hqv]
          by_cases hu : u = v
          · subst hu
            simp only [if_true]
            constructor
            · intro e; exact absurd e hqv
            · rintro ⟨e1, e2⟩
              have e1 := Option.some.inj e1
              exact absurd ⟨e1.symm, by rw [e1]; exact e2⟩ hq
          · simp only [hu, if_false]; exact h.own u q
    · simp only [move]
      rw [if_neg (fun h => h.2 h.1.symm)]
      simp [give, h.zero]
    · intro q hq
      simp only [move, give] at hq ⊢
      by_cases hqp : q = p ∧ p ≠ 0
      · have := h.fresh q hq
        rw [hqp.1, hp.resolve_left hqp.2] at this
        cases this
      · rw [if_neg hqp]
        simp [h.fresh q hq]
  | @resetSame v p hp =>
    have hx := (holds_iff h).1 hp
    exact ⟨s, by simp [exec, reset, hx], h⟩
  | @destroy v hv =>
    obtain ⟨y, hy⟩ := exists_var h hv
    obtain ⟨s', hd, d1, d2, d3⟩ := delete_held h hy
    refine ⟨{ s' with vars := put s'.vars v none }, by simp only [exec, hy, Option.bind_some, hd, Option.map_some], ?_⟩
    refine ⟨d3, ?_, ?_, ?_, ?_, ?_⟩
    · intro u
      simp only [put, d1]
      by_cases hu : u = v
      · simp [hu]
      · simp only [hu, if_false]; exact h.vars u
    · intro u q
      simp only [put, give, d1]
      by_cases hq : o.owner q = .var v
      · rw [if_pos hq]
        constructor
        · intro e; cases e
        · rintro ⟨e1, e2⟩
          by_cases hu : u = v
          · simp only [hu, if_true] at e1
            cases e1
          · simp only [hu, if_false] at e1
            have := (h.own u q).2 ⟨e1, e2⟩
            rw [hq] at this
            cases this
            exact absurd rfl hu
      · rw [if_neg hq]
        by_cases hu : u = v
        · subst hu
          simp only [if_true]
          constructor
          · intro e; exact absurd e hq
          · rintro ⟨e1, _⟩; cases e1
        · simp only [hu, if_false]; exact h.own u q
    · simp [give, h.zero]
    · simp only [d2, h.next, give]
    · intro q hq
      simp only [give] at hq ⊢
      simp [h.fresh q hq]
  | @use v p hp h0 =>
    have hx := (holds_iff h).1 hp
    have ha : s.alive p = true := (h.alive p).2 (by rw [(h.own v p).2 ⟨hx, h0⟩]; simp)
    exact ⟨s, by simp [exec, hx, h0, ha], h⟩
  | @deleteRaw p hp =>
    obtain ⟨s', hd, d1, d2, d3⟩ := delete_raw h hp
    refine ⟨s', hd, d3, by rw [d1]; exact h.vars, ?_, ?_, by rw [d2]; exact h.next, ?_⟩
    · intro u q
      simp only [move, d1]
      by_cases hq : q = p ∧ p ≠ 0
      · rw [if_pos hq]
        constructor
        · intro e; cases e
        · intro e
          have := (h.own u q).2 e
          rw [hq.1, hp.resolve_left hq.2] at this
          cases this
      · rw [if_neg hq]; exact h.own u q
    · simp only [move]
      rw [if_neg (fun h => h.2 h.1.symm)]
      exact h.zero
    · intro q hq
      simp only [move] at hq ⊢
      split
      · rfl
      · exact h.fresh q hq

/-- C247: every program that passes on only pointers it owns runs without undefined behaviour - nothing is deleted twice, nothing deleted is used -,
    and at any time exactly the objects that have an owner exist, and every variable points to what it owns. -/
theorem C247_ownership {l : List Op} {o : Own} (h : Steps .init l o) : ∃ s, run .init l = some s ∧ (∀ p, s.alive p = true ↔ o.owner p ≠ .none) ∧
    (∀ v p, s.vars v = some p ↔ Holds o v p) := by
  have key : ∀ (s : St) {o : Own} {l : List Op} {o' : Own}, Agrees s o → Steps o l o' → ∃ s', run s l = some s' ∧ Agrees s' o' := by
    intro s o l o' hag hst
    induction hst generalizing s with
    | nil => exact ⟨s, rfl, hag⟩
    | cons h1 _ ih =>
      obtain ⟨s1, e1, h2⟩ := step_agrees hag h1
      obtain ⟨s2, e2, h3⟩ := ih s1 h2
      exact ⟨s2, by rw [run, e1]; exact e2, h3⟩
  obtain ⟨s, e, hag⟩ := key .init agrees_init h
  exact ⟨s, e, hag.alive, fun v p => (holds_iff hag).symm⟩

/-- Nothing leaks: when no variable is left and the caller owns nothing, no object exists. -/
theorem C247_no_leak {l : List Op} {o : Own} (h : Steps .init l o) (hv : ∀ v, o.exist v = false) (hc : ∀ p, o.owner p ≠ .caller) :
    ∃ s, run .init l = some s ∧ ∀ p, s.alive p = false := by
  obtain ⟨s, e, h1, h2⟩ := C247_ownership h
  refine ⟨s, e, ?_⟩
  intro p
  cases ha : s.alive p with
  | false => rfl
  | true =>
    exfalso
    have := (h1 p).1 ha
    cases ho : o.owner p with
    | none => exact this ho
    | caller => exact hc p ho
    | var v =>
      by_cases hp : p = 0
      · -- 0 is never owned
        subst hp
        have hz : ∀ {o : Own} {l : List Op} {o' : Own}, Steps o l o' → o.owner 0 = .none → o'.owner 0 = .none := by
          intro o l o' hst
          induction hst with
          | nil => exact id
          | cons h1 _ ih =>
            intro hz
            refine ih ?_
            cases h1 <;> simp_all [give, move, put]
            all_goals (intro e; exact absurd e.symm (by assumption))
        rw [hz h rfl] at ho
        cases ho
      · have hh : Holds o v p → False := fun hh => by have := hh.1; rw [hv v] at this; cases this
        have hfin : ∃ s', run .init l = some s' ∧ Agrees s' o := by
          have key : ∀ (s : St) {o : Own} {l : List Op} {o' : Own}, Agrees s o → Steps o l o' → ∃ s', run s l = some s' ∧ Agrees s' o' := by
            intro s o l o' hag hst
            induction hst generalizing s with
            | nil => exact ⟨s, rfl, hag⟩
            | cons h1 _ ih =>
              obtain ⟨s1, e1, h2⟩ := step_agrees hag h1
              obtain ⟨s2, e2, h3⟩ := ih s1 h2
              exact ⟨s2, by rw [run, e1]; exact e2, h3⟩
          exact key .init agrees_init h
        obtain ⟨s', _, hag⟩ := hfin
        exact hh ((holds_iff hag).2 ((hag.own v p).1 ho).1)

/-- The pointer that release returns is the object the variable held (null when it held none). -/
theorem C247_release_value {l : List Op} {o : Own} {v p : Nat} (h : Steps .init l o) (hp : Holds o v p) :
    ∃ s, run .init l = some s ∧ (release s v).map Prod.fst = some p := by
  obtain ⟨s, e, _, h2⟩ := C247_ownership h
  exact ⟨s, e, by simp [release, (h2 v p).2 hp]⟩

/-- A program: an object goes from one variable to another, is assigned to itself, replaced, and everything is given up. -/
def demo : List Op := [.newObject, .construct 1 1, .copy 2 1, .assign 2 2, .use 2, .newObject, .reset 2 2, .release 2, .deleteRaw 2, .destroy 1, .destroy 2]

example : (run .init demo).map (fun s => (s.alive 1, s.alive 2, s.vars 1, s.vars 2)) = some (false, false, none, none) := by decide

theorem demo_steps : ∃ o, Steps .init demo o ∧ (∀ v, o.exist v = false) ∧ ∀ p, o.owner p ≠ .caller := by
  refine ⟨_, .cons .new (.cons (.construct rfl (.inr rfl)) (.cons (.copy rfl rfl) (.cons (.assignSelf rfl) (.cons (.use (p := 1) ⟨rfl, .inr ⟨by decide, by decide⟩⟩ (by decide))
    (.cons .new (.cons (.reset rfl (.inr (by decide))) (.cons (.release rfl) (.cons (.deleteRaw (.inr (by decide))) (.cons (.destroy rfl) (.cons (.destroy rfl) .nil)))))))))), ?_, ?_⟩
  · intro v
    simp only [give, move, put, Own.init]
    by_cases h1 : v = 2
    · simp [h1]
    · by_cases h2 : v = 1 <;> simp [h1, h2]
  · intro p
    simp only [give, move, put, Own.init]
    by_cases h1 : p = 1
    · subst h1; decide
    · by_cases h2 : p = 2
      · subst h2; decide
      · simp [h1, h2]

end Vital.Sys.Auto
