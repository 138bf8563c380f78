import Verif.Basic.Str
import Mathlib.Tactic.ByContra
import Mathlib.Data.List.Induction
/-
  Python interface objects: vital/bindings/python/vital/util/VitalObject.py; property C144.

  CPython semantics: an object is finalised (`__del__`) when its reference count becomes 0, before the references it holds are given up.
-/
namespace Vital.Py

/-- An interface object: `_inst_ptr`, `_parent` and its reference count; collected objects stay in the list with count 0. -/
-- models: vital/bindings/python/vital/util/VitalObject.py:129-131, 143-151
structure Obj where
  ptr : Nat
  parent : Option Nat
  rc : Nat

structure St where
  objs : List Obj
  /-- how many destroy calls the C side expects for a handle -/
  held : Nat → Nat
  /-- a handle was destroyed more often than it was handed out -/
  bad : Bool

def init : St := ⟨[], fun _ => 0, false⟩

-- models: a `_destroy` of a derived class: the C destroy function on `_inst_ptr`
def destroy (s : St) (p : Nat) : St :=
  if s.held p = 0 then { s with bad := true } else { s with held := fun x => if x = p then s.held x - 1 else s.held x }

/-- Give up a reference to object `x`; the number bounds the chain of parents. -/
-- models: CPython reference counting with VitalObject.py:153-155 (__del__)
def decref : Nat → St → Nat → St
  | 0, s, _ => s
  | n + 1, s, x => match s.objs[x]? with
    | none => s
    | some o =>
      let s1 := { s with objs := s.objs.set x { o with rc := o.rc - 1 } }
      if o.rc - 1 = 0 then
        match o.parent with
        | none => destroy s1 o.ptr
        | some q => decref n s1 q
      else s1

def incref (s : St) (x : Nat) : St := { s with objs := match s.objs[x]? with
  | none => s.objs
  | some o => s.objs.set x { o with rc := o.rc + 1 } }

/-- What a Python program does with interface objects. -/
inductive Op where
  /-- a constructor, or from_c_pointer on a handle just handed out by the C side; the handle may be one that is already known -/
  | create (p : Nat)
  /-- `y = X.from_c_pointer(x.c_pointer, shallow_copy_of=x)` -/
  | shallow (x : Nat)
  /-- another reference to `x` (a variable, a list entry, ...) -/
  | ref (x : Nat)
  /-- one reference to `x` is given up -/
  | drop (x : Nat)

-- models: vital/bindings/python/vital/util/VitalObject.py:88-155
def step (s : St) : Op → St
  | .create p => { s with objs := s.objs ++ [⟨p, none, 1⟩], held := fun x => if x = p then s.held x + 1 else s.held x }
  | .shallow x => match s.objs[x]? with
    | none => s
    | some o => let s1 := incref s x
      { s1 with objs := s1.objs ++ [⟨o.ptr, some x, 1⟩] }
  | .ref x => incref s x
  | .drop x => decref (x + 1) s x

def run (s : St) (ops : List Op) : St := ops.foldl step s

/-! ### Specification -/

/-- What the program sees: each object's handle, the object it was copied from, and the references the program has to it. -/
structure View where
  ptr : Nat
  copyOf : Option Nat
  refs : Nat

def vstep (v : List View) : Op → List View
  | .create p => v ++ [⟨p, none, 1⟩]
  | .shallow x => match v[x]? with
    | none => v
    | some o => v ++ [⟨o.ptr, some x, 1⟩]
  | .ref x => match v[x]? with
    | none => v
    | some o => v.set x { o with refs := o.refs + 1 }
  | .drop x => match v[x]? with
    | none => v
    | some o => v.set x { o with refs := o.refs - 1 }

/-- The program uses only objects it has a reference to. -/
def Legal (v : List View) : Op → Prop
  | .create _ => True
  | .shallow x | .ref x | .drop x => ∃ o, v[x]? = some o ∧ 0 < o.refs

def LegalRun : List View → List Op → Prop
  | _, [] => True
  | v, op :: ops => Legal v op ∧ LegalRun (vstep v op) ops

/-- The program can still get at object `x` or at a copy of it, or a copy of a copy, ... -/
inductive Kept (v : List View) : Nat → Prop where
  | self {x : Nat} {o : View} : v[x]? = some o → 0 < o.refs → Kept v x
  | copy {x y : Nat} {o : View} : v[y]? = some o → o.copyOf = some x → Kept v y → Kept v x

open Classical in
/-- Number of handed-out references on handle `p` that the program can still use. -/
noncomputable def owners (v : List View) (p : Nat) : Nat :=
  ((List.range v.length).filter fun x => decide (∃ o, v[x]? = some o ∧ o.ptr = p ∧ o.copyOf = none ∧ Kept v x)).length

/-! ### Proof -/

def kids (l : List Obj) (x : Nat) : Nat := l.countP fun o => decide (o.parent = some x ∧ 0 < o.rc)
def roots (l : List Obj) (p : Nat) : Nat := l.countP fun o => decide (o.parent = none ∧ o.ptr = p ∧ 0 < o.rc)

/-- The objects fit the view, except that the counts in `debt` are too high by that much. -/
structure Inv (s : St) (v : List View) (debt : Nat → Nat) : Prop where
  len : s.objs.length = v.length
  same : ∀ (x : Nat) (o : Obj), s.objs[x]? = some o → ∃ r, v[x]? = some ⟨o.ptr, o.parent, r⟩ ∧ o.rc = r + kids s.objs x + debt x
  older : ∀ (x q : Nat) (o : Obj), s.objs[x]? = some o → o.parent = some q → q < x ∧ ∃ o', s.objs[q]? = some o' ∧ o'.ptr = o.ptr
  held : ∀ p, s.held p = roots s.objs p
  good : s.bad = false

theorem kids_set {l : List Obj} {x : Nat} {o : Obj} (h : l[x]? = some o) (k : Nat) (y : Nat) :
    kids (l.set x { o with rc := k }) y + (if o.parent = some y ∧ 0 < o.rc then 1 else 0) = kids l y + (if o.parent = some y ∧ 0 < k then 1 else 0) := by
  obtain ⟨hx, e⟩ := List.getElem?_eq_some_iff.1 h
  unfold kids
  rw [List.countP_set hx, e]
  simp only [decide_eq_true_eq]
  have : (if o.parent = some y ∧ 0 < o.rc then 1 else 0) ≤ List.countP (fun o => decide (o.parent = some y ∧ 0 < o.rc)) l := by
    split
    · rename_i hc
      exact List.countP_pos_iff.2 ⟨o, List.mem_of_getElem? h, by simpa using hc⟩
    · omega
  omega

theorem roots_set {l : List Obj} {x : Nat} {o : Obj} (h : l[x]? = some o) (k : Nat) (p : Nat) :
    roots (l.set x { o with rc := k }) p + (if o.parent = none ∧ o.ptr = p ∧ 0 < o.rc then 1 else 0) = roots l p + (if o.parent = none ∧ o.ptr = p ∧ 0 < k then 1 else 0) := by
  obtain ⟨hx, e⟩ := List.getElem?_eq_some_iff.1 h
  unfold roots
  rw [List.countP_set hx, e]
  simp only [decide_eq_true_eq]
  have : (if o.parent = none ∧ o.ptr = p ∧ 0 < o.rc then 1 else 0) ≤ List.countP (fun o => decide (o.parent = none ∧ o.ptr = p ∧ 0 < o.rc)) l := by
    split
    · rename_i hc
      exact List.countP_pos_iff.2 ⟨o, List.mem_of_getElem? h, by simpa using hc⟩
    · omega
  omega

theorem getElem?_set_cases {α : Type} {l : List α} {x y : Nat} {a b : α} (h : (l.set x a)[y]? = some b) : (y = x ∧ b = a) ∨ (y ≠ x ∧ l[y]? = some b) := by
  rw [List.getElem?_set] at h
  split at h
  · split at h
    · exact Or.inl ⟨by omega, by cases h; rfl⟩
    · cases h
  · exact Or.inr ⟨by omega, h⟩

/-- One reference too many on `x` is repaid by `decref`. -/
theorem decref_inv : ∀ (n x : Nat) (s : St) (v : List View), x < n → x < s.objs.length → Inv s v (fun y => if y = x then 1 else 0) → Inv (decref n s x) v (fun _ => 0) := by
  intro n
  induction n with
  | zero => intro x s v h; omega
  | succ n ih =>
    intro x s v hn hx h
    obtain ⟨o, ho⟩ : ∃ o, s.objs[x]? = some o := ⟨_, List.getElem?_eq_getElem hx⟩
    obtain ⟨r, hr, hrc⟩ := h.same x o ho
    simp only [if_true] at hrc
    -- the state after the decrement
    have hkids := kids_set ho (o.rc - 1)
    have hroots := roots_set ho (o.rc - 1)
    have hown : ∀ y, o.parent = some y → y ≠ x := by
      intro y hy e
      have := (h.older x y o ho hy).1
      omega
    have holder : ∀ (y q : Nat) (o' : Obj), (s.objs.set x { o with rc := o.rc - 1 })[y]? = some o' → o'.parent = some q →
        q < y ∧ ∃ o'', (s.objs.set x { o with rc := o.rc - 1 })[q]? = some o'' ∧ o''.ptr = o'.ptr := by
      intro y q o' hy hq
      have hold : ∃ o0, s.objs[y]? = some o0 ∧ o0.parent = o'.parent ∧ o0.ptr = o'.ptr := by
        rcases getElem?_set_cases hy with ⟨rfl, rfl⟩ | ⟨_, hy⟩
        · exact ⟨o, ho, rfl, rfl⟩
        · exact ⟨o', hy, rfl, rfl⟩
      obtain ⟨o0, h0, hp0, ht0⟩ := hold
      obtain ⟨h1, o1, h2, h3⟩ := h.older y q o0 h0 (by rw [hp0, hq])
      refine ⟨h1, ?_⟩
      by_cases e : q = x
      · subst e
        rw [ho] at h2; cases h2
        exact ⟨_, List.getElem?_set_self hx, by simp only; rw [h3, ht0]⟩
      · rw [List.getElem?_set_ne (Ne.symm e)]
        exact ⟨o1, h2, by rw [h3, ht0]⟩
    have hlen : (s.objs.set x { o with rc := o.rc - 1 }).length = v.length := by simp [h.len]
    unfold decref
    simp only [ho]
    by_cases hz : o.rc - 1 = 0
    · rw [if_pos hz]
      have hrc1 : o.rc = 1 := by omega
      rw [hz] at holder hlen hkids hroots ⊢
      obtain ⟨pt, par, rc⟩ := o
      simp only at hrc1 hrc
      subst hrc1
      cases par with
      | none =>
        simp only
        -- the object dies and destroys its handle
        have hheld : s.held pt ≠ 0 := by
          rw [h.held]
          have : 0 < roots s.objs pt := List.countP_pos_iff.2 ⟨_, List.mem_of_getElem? ho, by simp⟩
          omega
        unfold destroy
        simp only
        rw [if_neg hheld]
        refine ⟨hlen, ?_, holder, ?_, h.good⟩
        · intro y o' hy
          have hk := hkids y
          simp only [reduceCtorEq, false_and, if_false, Nat.add_zero] at hk
          simp only [hk]
          rcases getElem?_set_cases hy with ⟨rfl, rfl⟩ | ⟨hne, hy⟩
          · exact ⟨r, hr, by simp only; omega⟩
          · obtain ⟨r', h1, h2⟩ := h.same y o' hy
            simp only [hne, if_false] at h2
            exact ⟨r', h1, h2⟩
        · intro p
          have hk := hroots p
          simp only
          by_cases e : p = pt
          · subst e
            simp only [true_and, Nat.lt_irrefl, if_false, if_true, Nat.zero_lt_one] at hk
            rw [if_pos rfl, h.held]; omega
          · have e' : ¬ pt = p := fun h => e h.symm
            simp only [true_and, e', false_and, if_false, Nat.add_zero] at hk
            rw [if_neg e, h.held]; exact hk.symm
      | some q =>
        simp only
        obtain ⟨hq, oq, hoq, -⟩ := h.older x q _ ho rfl
        refine ih q _ v (by omega) (by simp only [List.length_set]; omega) ?_
        refine ⟨hlen, ?_, holder, ?_, h.good⟩
        · intro y o' hy
          have hk := hkids y
          simp only [Option.some.injEq, Nat.lt_irrefl, and_false, if_false, Nat.add_zero, Nat.zero_lt_one, and_true] at hk
          rcases getElem?_set_cases hy with ⟨rfl, rfl⟩ | ⟨hne, hy⟩
          · have hqy : ¬ q = y := by omega
            simp only [hqy, if_false, Nat.add_zero] at hk
            refine ⟨r, hr, ?_⟩
            have hqy' : ¬ y = q := by omega
            simp only [hqy', if_false]
            omega
          · obtain ⟨r', h1, h2⟩ := h.same y o' hy
            simp only [hne, if_false] at h2
            refine ⟨r', h1, ?_⟩
            simp only
            by_cases e : y = q
            · subst e
              simp only [if_true] at hk ⊢
              omega
            · have e' : ¬ q = y := fun h => e h.symm
              simp only [e', if_false, Nat.add_zero] at hk
              simp only [e, if_false]
              omega
        · intro p
          have hk := hroots p
          simp only [reduceCtorEq, false_and, if_false, Nat.add_zero] at hk
          simp only
          rw [h.held]; exact hk.symm
    · rw [if_neg hz]
      have hpos : 0 < o.rc := by omega
      have hpos' : 0 < o.rc - 1 := by omega
      refine ⟨hlen, ?_, holder, ?_, h.good⟩
      · intro y o' hy
        have hk := hkids y
        simp only [hpos, hpos', and_true] at hk
        have hk' : kids (s.objs.set x { o with rc := o.rc - 1 }) y = kids s.objs y := by omega
        simp only [hk']
        rcases getElem?_set_cases hy with ⟨rfl, rfl⟩ | ⟨hne, hy⟩
        · exact ⟨r, hr, by simp only; omega⟩
        · obtain ⟨r', h1, h2⟩ := h.same y o' hy
          simp only [hne, if_false] at h2
          exact ⟨r', h1, h2⟩
      · intro p
        have hk := hroots p
        simp only [hpos, hpos', and_true] at hk
        simp only
        rw [h.held]; omega

/-- One more reference from the program. -/
theorem incref_objs {s : St} {x : Nat} {o : Obj} (ho : s.objs[x]? = some o) : (incref s x).objs = s.objs.set x { o with rc := o.rc + 1 } := by
  unfold incref; simp only [ho]

theorem inv_incref {s : St} {v v' : List View} (h : Inv s v (fun _ => 0)) {x : Nat} {o : Obj} (ho : s.objs[x]? = some o) (hpos : 0 < o.rc) (debt : Nat → Nat)
    (hv : v'.length = v.length) (hx : ∀ r, v[x]? = some ⟨o.ptr, o.parent, r⟩ → ∃ r', v'[x]? = some ⟨o.ptr, o.parent, r'⟩ ∧ r' + debt x = r + 1)
    (hy : ∀ y, y ≠ x → v'[y]? = v[y]? ∧ debt y = 0) : Inv (incref s x) v' debt := by
  have hkids := kids_set ho (o.rc + 1)
  have hroots := roots_set ho (o.rc + 1)
  obtain ⟨hxl, -⟩ := List.getElem?_eq_some_iff.1 ho
  have eh : (incref s x).held = s.held := rfl
  have eb : (incref s x).bad = s.bad := rfl
  refine ⟨?_, ?_, ?_, ?_, by rw [eb]; exact h.good⟩
  · rw [incref_objs ho, List.length_set, h.len, hv]
  · rw [incref_objs ho]
    intro y o' hyo
    have hk := hkids y
    simp only [hpos, and_true, Nat.succ_pos, show 0 < o.rc + 1 by omega] at hk
    have hk' : kids (s.objs.set x { o with rc := o.rc + 1 }) y = kids s.objs y := by omega
    rw [hk']
    rcases getElem?_set_cases hyo with ⟨rfl, rfl⟩ | ⟨hne, hyo⟩
    · obtain ⟨r, h1, h2⟩ := h.same y o ho
      obtain ⟨r', h3, h4⟩ := hx r h1
      exact ⟨r', h3, by simp only; omega⟩
    · obtain ⟨r, h1, h2⟩ := h.same y o' hyo
      obtain ⟨h3, h4⟩ := hy y hne
      exact ⟨r, by rw [h3]; exact h1, by omega⟩
  · rw [incref_objs ho]
    intro y q o' hyo hq
    have hold : ∃ o0, s.objs[y]? = some o0 ∧ o0.parent = o'.parent ∧ o0.ptr = o'.ptr := by
      rcases getElem?_set_cases hyo with ⟨rfl, rfl⟩ | ⟨_, hyo⟩
      · exact ⟨o, ho, rfl, rfl⟩
      · exact ⟨o', hyo, rfl, rfl⟩
    obtain ⟨o0, h0, hp0, ht0⟩ := hold
    obtain ⟨h1, o1, h2, h3⟩ := h.older y q o0 h0 (by rw [hp0, hq])
    refine ⟨h1, ?_⟩
    by_cases e : q = x
    · subst e
      rw [ho] at h2; cases h2
      exact ⟨_, List.getElem?_set_self hxl, by simp only; rw [h3, ht0]⟩
    · rw [List.getElem?_set_ne (Ne.symm e)]
      exact ⟨o1, h2, by rw [h3, ht0]⟩
  · intro p
    rw [incref_objs ho, eh]
    have hk := hroots p
    simp only [hpos, and_true, show 0 < o.rc + 1 by omega] at hk
    rw [h.held]; omega

theorem obj_of_view {s : St} {v : List View} {d : Nat → Nat} (h : Inv s v d) {x : Nat} {w : View} (hw : v[x]? = some w) :
    ∃ o, s.objs[x]? = some o ∧ w = ⟨o.ptr, o.parent, w.refs⟩ ∧ o.rc = w.refs + kids s.objs x + d x := by
  obtain ⟨hx, -⟩ := List.getElem?_eq_some_iff.1 hw
  have hx' : x < s.objs.length := by rw [h.len]; exact hx
  obtain ⟨o, ho⟩ : ∃ o, s.objs[x]? = some o := ⟨_, List.getElem?_eq_getElem hx'⟩
  obtain ⟨r, h1, h2⟩ := h.same x o ho
  rw [hw] at h1
  cases h1
  exact ⟨o, ho, rfl, h2⟩

theorem kids_zero {s : St} {v : List View} {d : Nat → Nat} (h : Inv s v d) : kids s.objs s.objs.length = 0 := by
  unfold kids
  rw [List.countP_eq_zero]
  intro o ho hc
  simp only [decide_eq_true_eq] at hc
  obtain ⟨i, hi, e⟩ := List.getElem_of_mem ho
  have := h.older i _ o (by rw [List.getElem?_eq_getElem hi, e]) hc.1
  omega

theorem step_inv {s : St} {v : List View} (h : Inv s v (fun _ => 0)) (op : Op) (hl : Legal v op) : Inv (step s op) (vstep v op) (fun _ => 0) := by
  cases op with
  | create p =>
    have hk : ∀ y, kids (s.objs ++ [⟨p, none, 1⟩]) y = kids s.objs y := by
      intro y; simp [kids]
    refine ⟨by simp [step, vstep, h.len], ?_, ?_, ?_, h.good⟩
    · intro x o ho
      simp only [step, vstep] at ho ⊢
      rw [hk]
      by_cases hx : x < s.objs.length
      · rw [List.getElem?_append_left hx] at ho
        rw [List.getElem?_append_left (by rw [← h.len]; exact hx)]
        exact h.same x o ho
      · rw [List.getElem?_append_right (by omega)] at ho
        rw [List.getElem?_append_right (by rw [← h.len]; omega)]
        have e : x = s.objs.length := by
          by_contra hne
          rw [List.getElem?_eq_none (by simp; omega)] at ho; cases ho
        subst e
        rw [← h.len]
        simp only [Nat.sub_self, List.getElem?_cons_zero, Option.some.injEq] at ho ⊢
        subst ho
        exact ⟨1, rfl, by simp [kids_zero h]⟩
    · intro x q o ho hq
      simp only [step] at ho ⊢
      by_cases hx : x < s.objs.length
      · rw [List.getElem?_append_left hx] at ho
        obtain ⟨h1, o', h2, h3⟩ := h.older x q o ho hq
        exact ⟨h1, o', by rw [List.getElem?_append_left (by omega)]; exact h2, h3⟩
      · rw [List.getElem?_append_right (by omega)] at ho
        have e : x - s.objs.length = 0 := by
          by_contra hne
          rw [List.getElem?_eq_none (by simp; omega)] at ho; cases ho
        rw [e] at ho
        simp only [List.getElem?_cons_zero, Option.some.injEq] at ho
        subst ho
        cases hq
    · intro q
      simp only [step]
      have : roots (s.objs ++ [⟨p, none, 1⟩]) q = roots s.objs q + if p = q then 1 else 0 := by
        simp [roots, List.countP_cons]
      rw [this, h.held]
      by_cases e : q = p
      · subst e; simp
      · have e' : ¬ p = q := fun h => e h.symm
        simp [e, e']
  | shallow x =>
    obtain ⟨w, hw, hpos⟩ := hl
    obtain ⟨o, ho, hwe, hrc⟩ := obj_of_view h hw
    obtain ⟨hxl, -⟩ := List.getElem?_eq_some_iff.1 ho
    -- first the reference from the copy, owed by nobody yet, then the copy itself
    have h1 : Inv (incref s x) v (fun y => if y = x then 1 else 0) := by
      refine inv_incref h ho (by omega) _ rfl ?_ ?_
      · intro r hr; exact ⟨r, hr, by simp⟩
      · intro y hy; exact ⟨rfl, by simp [hy]⟩
    have e1 : step s (.shallow x) = { incref s x with objs := (incref s x).objs ++ [⟨o.ptr, some x, 1⟩] } := by simp only [step, ho]
    have e2 : vstep v (.shallow x) = v ++ [⟨o.ptr, some x, 1⟩] := by simp only [vstep, hw]; rw [hwe]
    rw [e1, e2]
    generalize hs' : incref s x = s' at h1
    have hxl' : x < s'.objs.length := by rw [← hs', incref_objs ho, List.length_set]; exact hxl
    have hptr : ∃ o', s'.objs[x]? = some o' ∧ o'.ptr = o.ptr := by
      rw [← hs', incref_objs ho]
      exact ⟨_, List.getElem?_set_self hxl, rfl⟩
    have hk : ∀ y, kids (s'.objs ++ [⟨o.ptr, some x, 1⟩]) y = kids s'.objs y + if x = y then 1 else 0 := by
      intro y; simp [kids, List.countP_cons]
    refine ⟨by simp [h1.len], ?_, ?_, ?_, h1.good⟩
    · intro y o' ho'
      simp only at ho' ⊢
      rw [hk]
      by_cases hy : y < s'.objs.length
      · rw [List.getElem?_append_left hy] at ho'
        rw [List.getElem?_append_left (by rw [← h1.len]; exact hy)]
        obtain ⟨r, h2, h3⟩ := h1.same y o' ho'
        refine ⟨r, h2, ?_⟩
        by_cases e : y = x
        · subst e; simp only [if_true] at h3 ⊢; omega
        · have e' : ¬ x = y := fun h => e h.symm
          simp only [e, e', if_false] at h3 ⊢; omega
      · rw [List.getElem?_append_right (by omega)] at ho'
        rw [List.getElem?_append_right (by rw [← h1.len]; omega)]
        have e : y = s'.objs.length := by
          by_contra hne
          rw [List.getElem?_eq_none (by simp; omega)] at ho'; cases ho'
        subst e
        rw [← h1.len]
        simp only [Nat.sub_self, List.getElem?_cons_zero, Option.some.injEq] at ho' ⊢
        subst ho'
        refine ⟨1, rfl, ?_⟩
        rw [kids_zero h1, if_neg (by omega)]
    · intro y q o' ho' hq
      simp only at ho' ⊢
      by_cases hy : y < s'.objs.length
      · rw [List.getElem?_append_left hy] at ho'
        obtain ⟨h2, o2, h3, h4⟩ := h1.older y q o' ho' hq
        exact ⟨h2, o2, by rw [List.getElem?_append_left (by omega)]; exact h3, h4⟩
      · rw [List.getElem?_append_right (by omega)] at ho'
        have e : y - s'.objs.length = 0 := by
          by_contra hne
          rw [List.getElem?_eq_none (by simp; omega)] at ho'; cases ho'
        rw [e] at ho'
        simp only [List.getElem?_cons_zero, Option.some.injEq] at ho'
        subst ho'
        cases hq
        obtain ⟨o2, h3, h4⟩ := hptr
        exact ⟨by omega, o2, by rw [List.getElem?_append_left hxl']; exact h3, h4⟩
    · intro p
      simp only
      have : roots (s'.objs ++ [⟨o.ptr, some x, 1⟩]) p = roots s'.objs p := by simp [roots]
      rw [this]; exact h1.held p
  | ref x =>
    obtain ⟨w, hw, hpos⟩ := hl
    obtain ⟨o, ho, hwe, hrc⟩ := obj_of_view h hw
    obtain ⟨hxl, -⟩ := List.getElem?_eq_some_iff.1 hw
    have e2 : vstep v (.ref x) = v.set x { w with refs := w.refs + 1 } := by simp only [vstep, hw]
    rw [e2]
    refine inv_incref h ho (by omega) _ (by simp) ?_ ?_
    · intro r hr
      rw [hw] at hr
      cases hr
      exact ⟨_, List.getElem?_set_self hxl, rfl⟩
    · intro y hy
      exact ⟨by rw [List.getElem?_set_ne (Ne.symm hy)], rfl⟩
  | drop x =>
    obtain ⟨w, hw, hpos⟩ := hl
    obtain ⟨o, ho, hwe, hrc⟩ := obj_of_view h hw
    obtain ⟨hxl, -⟩ := List.getElem?_eq_some_iff.1 hw
    have e2 : vstep v (.drop x) = v.set x { w with refs := w.refs - 1 } := by simp only [vstep, hw]
    rw [e2]
    refine decref_inv (x + 1) x s _ (by omega) (by rw [h.len]; exact hxl) ?_
    refine ⟨by simp [h.len], ?_, h.older, h.held, h.good⟩
    intro y o' ho'
    obtain ⟨r, h1, h2⟩ := h.same y o' ho'
    by_cases e : y = x
    · subst e
      rw [hw] at h1
      cases h1
      refine ⟨r - 1, List.getElem?_set_self hxl, ?_⟩
      simp only [if_true] at hpos ⊢; omega
    · rw [List.getElem?_set_ne (Ne.symm e)]
      exact ⟨r, h1, by simp only [e, if_false]; exact h2⟩

theorem run_inv : ∀ (ops : List Op) (s : St) (v : List View), Inv s v (fun _ => 0) → LegalRun v ops → Inv (run s ops) (ops.foldl vstep v) (fun _ => 0) := by
  intro ops
  induction ops with
  | nil => intro s v h _; exact h
  | cons op ops ih => intro s v h hl; exact ih _ _ (step_inv h op hl.1) hl.2

theorem kept_iff {s : St} {v : List View} (h : Inv s v (fun _ => 0)) : ∀ (n x : Nat) (o : Obj), s.objs.length - x ≤ n → s.objs[x]? = some o → (Kept v x ↔ 0 < o.rc) := by
  have back : ∀ x, Kept v x → ∀ o, s.objs[x]? = some o → 0 < o.rc := by
    intro x hk
    induction hk with
    | self hx hr =>
      intro o ho
      obtain ⟨o', ho', -, hrc⟩ := obj_of_view h hx
      rw [ho] at ho'; cases ho'; omega
    | @copy x y w hy hc _ ih =>
      intro o ho
      obtain ⟨o', ho', hw, hrc⟩ := obj_of_view h hy
      have hp : o'.parent = some x := by rw [hw] at hc; exact hc
      have hpos := ih o' ho'
      obtain ⟨r, -, h2⟩ := h.same x o ho
      have : 0 < kids s.objs x := List.countP_pos_iff.2 ⟨o', List.mem_of_getElem? ho', by simp [hp, hpos]⟩
      omega
  intro n
  induction n with
  | zero =>
    intro x o hn ho
    obtain ⟨hx, -⟩ := List.getElem?_eq_some_iff.1 ho
    omega
  | succ n ih =>
    intro x o hn ho
    refine ⟨fun hk => back x hk o ho, ?_⟩
    intro hpos
    obtain ⟨r, h1, h2⟩ := h.same x o ho
    by_cases hr : 0 < r
    · exact .self h1 hr
    · have hk : 0 < kids s.objs x := by omega
      obtain ⟨o', hm, hc⟩ := List.countP_pos_iff.1 hk
      simp only [decide_eq_true_eq] at hc
      obtain ⟨y, hy, e⟩ := List.getElem_of_mem hm
      have hy' : s.objs[y]? = some o' := by rw [List.getElem?_eq_getElem hy, e]
      have hlt := (h.older y x o' hy' hc.1).1
      have := (ih y o' (by omega) hy').2 hc.2
      obtain ⟨r', h3, -⟩ := h.same y o' hy'
      exact .copy h3 hc.1 this

theorem countP_range {α : Type} (l : List α) (P : α → Bool) (Q : Nat → Prop) [DecidablePred Q] (h : ∀ (i : Nat) (a : α), l[i]? = some a → (Q i ↔ P a = true)) :
    ((List.range l.length).filter fun i => decide (Q i)).length = l.countP P := by
  induction l using List.reverseRecOn with
  | nil => simp
  | append_singleton l a ih =>
    rw [List.length_append, List.length_singleton, List.range_succ, List.filter_append, List.length_append, List.countP_append]
    rw [ih (fun i b hb => h i b (by
      obtain ⟨hi, -⟩ := List.getElem?_eq_some_iff.1 hb
      rw [List.getElem?_append_left hi]; exact hb))]
    have := h l.length a (by simp)
    by_cases hq : Q l.length
    · simp [hq, this.1 hq]
    · have : P a = false := by
        cases hp : P a with
        | false => rfl
        | true => exact absurd (this.2 hp) hq
      simp [hq, this]

/-- C144: for every legal history of a Python program, no handle is destroyed more often than it was handed out; at every moment the
    handle has exactly as many outstanding references as there are owning objects that the program can still reach, directly or
    through copies; in particular the handle of every reachable object is still valid, and when nothing is reachable any more, nothing is left. -/
theorem C144_python_objects (ops : List Op) (hl : LegalRun [] ops) :
    (run init ops).bad = false ∧
    (∀ p, (run init ops).held p = owners (ops.foldl vstep []) p) ∧
    (∀ (x : Nat) (o : View), (ops.foldl vstep [])[x]? = some o → Kept (ops.foldl vstep []) x → 0 < (run init ops).held o.ptr) ∧
    ((∀ x, ¬ Kept (ops.foldl vstep []) x) → ∀ p, (run init ops).held p = 0) := by
  have h0 : Inv init [] (fun _ => 0) := ⟨rfl, by simp [init], by simp [init], fun p => rfl, rfl⟩
  have h := run_inv ops init [] h0 hl
  generalize run init ops = s at h ⊢
  generalize ops.foldl vstep [] = v at h ⊢
  have hown : ∀ p, s.held p = owners v p := by
    intro p
    rw [h.held]
    unfold owners roots
    rw [← h.len]
    classical
    symm
    have := countP_range s.objs (fun o => decide (o.parent = none ∧ o.ptr = p ∧ 0 < o.rc)) (fun x => ∃ o, v[x]? = some o ∧ o.ptr = p ∧ o.copyOf = none ∧ Kept v x) ?_
    · rw [← this]
    · intro x o ho
      simp only [decide_eq_true_eq]
      obtain ⟨r, h1, h2⟩ := h.same x o ho
      rw [h1]
      simp only [Option.some.injEq, exists_eq_left']
      rw [kept_iff h _ x o (Nat.le_refl _) ho]
      constructor
      · rintro ⟨a, b, c⟩; exact ⟨b, a, c⟩
      · rintro ⟨a, b, c⟩; exact ⟨b, a, c⟩
  refine ⟨h.good, hown, ?_, ?_⟩
  · -- climb to the owning object
    have climb : ∀ (n x : Nat) (o : Obj), x < n → s.objs[x]? = some o → 0 < o.rc → 0 < s.held o.ptr := by
      intro n
      induction n with
      | zero => intro x o hx; omega
      | succ n ih =>
        intro x o hx ho hpos
        cases hp : o.parent with
        | none =>
          rw [h.held]
          exact List.countP_pos_iff.2 ⟨o, List.mem_of_getElem? ho, by simp [hp, hpos]⟩
        | some q =>
          obtain ⟨h1, o', h2, h3⟩ := h.older x q o ho hp
          have hk : 0 < kids s.objs q := List.countP_pos_iff.2 ⟨o, List.mem_of_getElem? ho, by simp [hp, hpos]⟩
          obtain ⟨r, -, h4⟩ := h.same q o' h2
          have := ih q o' (by omega) h2 (by omega)
          rw [h3] at this; exact this
    intro x w hw hk
    obtain ⟨o, ho, hwe, -⟩ := obj_of_view h hw
    have := climb (x + 1) x o (by omega) ho ((kept_iff h _ x o (Nat.le_refl _) ho).1 hk)
    rw [hwe]; exact this
  · intro hn p
    rw [hown p]
    unfold owners
    rw [List.length_eq_zero_iff, List.filter_eq_nil_iff]
    intro x _ hx
    simp only [decide_eq_true_eq] at hx
    obtain ⟨o, -, -, -, hk⟩ := hx
    exact hn x hk

/-- An image (object 0), a shallow copy (1) that outlives the variable of the first, and a second object on the same handle (2). -/
def demo : List Op := [.create 8, .shallow 0, .drop 0, .create 8, .ref 1, .drop 1, .drop 1]

example : LegalRun [] demo ∧ (run init demo).held 8 = 1 ∧ (run init (demo ++ [.drop 2])).held 8 = 0 ∧ (run init (demo.take 5)).held 8 = 2 := by
  refine ⟨?_, by decide, by decide, by decide⟩
  simp [demo, LegalRun, Legal, vstep]

theorem destroy_bad (s : St) (p : Nat) : (s.bad = true ∨ s.held p = 0) ↔ (destroy s p).bad = true := by
  unfold destroy
  split <;> simp_all

/-- C144: the flag of the model means what it says: a destroy call on a handle that is not held sets it, no other does, and it stays set. -/
theorem C144_flag (s : St) : (∀ p, (destroy s p).bad = true ↔ s.bad = true ∨ s.held p = 0) ∧ (s.bad = true → ∀ ops, (run s ops).bad = true) := by
  refine ⟨fun p => (destroy_bad s p).symm, ?_⟩
  have hd : ∀ (n : Nat) (s : St) (x : Nat), s.bad = true → (decref n s x).bad = true := by
    intro n
    induction n with
    | zero => intro s x h; exact h
    | succ n ih =>
      intro s x h
      unfold decref
      split
      · exact h
      · simp only
        split
        · split
          · exact (destroy_bad _ _).1 (.inl h)
          · exact ih _ _ h
        · exact h
  have hs : ∀ (s : St) (op : Op), s.bad = true → (step s op).bad = true := by
    intro s op h
    cases op with
    | create p => exact h
    | shallow x =>
      cases ho : s.objs[x]? <;> simp only [step, ho] <;> exact h
    | ref x => exact h
    | drop x => exact hd _ _ _ h
  intro h ops
  induction ops generalizing s with
  | nil => exact h
  | cons op ops ih => exact ih _ (hs _ _ h)

end Vital.Py
