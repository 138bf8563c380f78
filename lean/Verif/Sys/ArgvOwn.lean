import Verif.Sys.Encoding
/-
  Encoding::CommandLineArguments (vital/kwiversys/EncodingCXX.cxx:71-140): copies of the arguments of a program, with malloc and free; property C263.
-/
namespace Vital.Sys.Enc.Args
open Vital

/-- The heap (the blocks that are allocated), where the next block will be (blocks are numbered), and the objects that live, by the variable that
holds them: the entries of argv_, `none` for a null pointer. -/
structure St where
  heap : Nat → Option Str
  next : Nat
  obj : Nat → Option (List (Option Nat))

def set {α : Type} (g : Nat → α) (i : Nat) (x : α) : Nat → α := fun j => if j = i then x else g j

-- models: strdup of each string that is not null, as in the loops at vital/kwiversys/EncodingCXX.cxx:75-78, 86-89, 105-108, 123-126;
-- memory does not run out
def dupAll (h : Nat → Option Str) (n : Nat) : List (Option Str) → (Nat → Option Str) × Nat × List (Option Nat)
  | [] => (h, n, [])
  | none :: l => let r := dupAll h n l; (r.1, r.2.1, none :: r.2.2)
  | some s :: l => let r := dupAll (set h n (some s)) (n + 1) l; (r.1, r.2.1, some n :: r.2.2)

-- models: the loops that free at vital/kwiversys/EncodingCXX.cxx:95-98, 117-120; free of a null pointer does nothing; `none` is a block freed twice
def freeAll (h : Nat → Option Str) : List (Option Nat) → Option (Nat → Option Str)
  | [] => some h
  | none :: l => freeAll h l
  | some a :: l => if (h a).isSome then freeAll (set h a none) l else none

/-- The strings that the pointers lead to; `none` if one of them leads to a block that is not there. -/
def strings (h : Nat → Option Str) : List (Option Nat) → Option (List (Option Str))
  | [] => some []
  | none :: l => (strings h l).map (none :: ·)
  | some a :: l => match h a with
    | some s => (strings h l).map (some s :: ·)
    | none => none

/-- The calls; a variable is a number. -/
inductive Op where
  | new (v : Nat) (args : List Str)
  | newWide (v : Nat) (args : List (List W))
  | copy (v src : Nat)
  | assign (v src : Nat)
  | destroy (v : Nat)

-- models: vital/kwiversys/EncodingCXX.cxx:71-130 (the constructors, the destructor, the copy constructor, operator=); `none` is undefined
-- behaviour: a block used or freed after it was freed.  A call on a variable that does not hold an object (or does, for a constructor) does not
-- compile or is another program, and is left out: nothing happens.
def exec (k : Codec) (s : St) : Op → Option St
  | .new v args => match s.obj v with
    | some _ => some s
    | none =>
      let r := dupAll s.heap s.next (args.map some)
      some ⟨r.1, r.2.1, set s.obj v (some (r.2.2 ++ [none]))⟩
  | .newWide v args => match s.obj v with
    | some _ => some s
    | none =>
      let r := dupAll s.heap s.next (args.map (fun w => k.encode w))
      some ⟨r.1, r.2.1, set s.obj v (some (r.2.2 ++ [none]))⟩
  | .copy v src => match s.obj v, s.obj src with
    | none, some p =>
      (strings s.heap p).map (fun l => let r := dupAll s.heap s.next l; ⟨r.1, r.2.1, set s.obj v (some r.2.2)⟩)
    | _, _ => some s
  | .assign v src => match s.obj v, s.obj src with
    | some old, some p =>
      if v = src then some s
      else (freeAll s.heap old).bind (fun h => (strings h p).map (fun l => let r := dupAll h s.next l; ⟨r.1, r.2.1, set s.obj v (some r.2.2)⟩))
    | _, _ => some s
  | .destroy v => match s.obj v with
    | none => some s
    | some old => (freeAll s.heap old).map (fun h => ⟨h, s.next, set s.obj v none⟩)

def run (k : Codec) : St → List Op → Option St
  | s, [] => some s
  | s, o :: l => (exec k s o).bind (fun s' => run k s' l)

-- models: vital/kwiversys/EncodingCXX.cxx:132-140 (argc, argv): what a caller sees
def argc (p : List (Option Nat)) : Nat := p.length - 1
def argv (s : St) (v : Nat) : Option (List (Option Str)) := (s.obj v).bind (strings s.heap)

def start : St := ⟨fun _ => none, 0, fun _ => none⟩

/-! ### Specification: values without a heap -/

/-- The entries of argv of each variable (the last one is null). -/
def Val := Nat → Option (List (Option Str))

def specStep (k : Codec) (g : Val) : Op → Val
  | .new v args => match g v with
    | some _ => g
    | none => fun x => if x = v then some (args.map some ++ [none]) else g x
  | .newWide v args => match g v with
    | some _ => g
    | none => fun x => if x = v then some (args.map k.encode ++ [none]) else g x
  | .copy v src => match g v, g src with
    | none, some l => fun x => if x = v then some l else g x
    | _, _ => g
  | .assign v src => match g v, g src with
    | some _, some l => fun x => if x = v then some l else g x
    | _, _ => g
  | .destroy v => fun x => if x = v then none else g x

def specRun (k : Codec) : Val → List Op → Val
  | g, [] => g
  | g, o :: l => specRun k (specStep k g o) l

/-! ### Proofs -/

theorem set_same {α : Type} (g : Nat → α) (i : Nat) (x : α) : set g i x i = x := by simp [set]
theorem set_ne {α : Type} (g : Nat → α) {i j : Nat} (x : α) (h : j ≠ i) : set g i x j = g j := by simp [set, h]

/-- The addresses of an object. -/
def addrs (p : List (Option Nat)) : List Nat := p.filterMap id

theorem dupAll_spec (l : List (Option Str)) : ∀ (h : Nat → Option Str) (n : Nat), (∀ a, n ≤ a → h a = none) →
    n ≤ (dupAll h n l).2.1 ∧ (∀ a, a < n → (dupAll h n l).1 a = h a) ∧
    (∀ a, (dupAll h n l).2.1 ≤ a → (dupAll h n l).1 a = none) ∧
    (∀ a, a ∈ addrs (dupAll h n l).2.2 ↔ n ≤ a ∧ a < (dupAll h n l).2.1) ∧ (addrs (dupAll h n l).2.2).Nodup ∧
    strings (dupAll h n l).1 (dupAll h n l).2.2 = some l := by
  induction l with
  | nil => intro h n hn; simp [dupAll, addrs, strings, hn]; omega
  | cons x l ih =>
    intro h n hn
    cases x with
    | none =>
      obtain ⟨h1, h2, h3, h4, h5, h6⟩ := ih h n hn
      refine ⟨h1, h2, h3, h4, h5, ?_⟩
      show (strings _ _).map _ = _
      rw [show (dupAll h n (none :: l)).1 = (dupAll h n l).1 from rfl, h6]; rfl
    | some s =>
      obtain ⟨h1, h2, h3, h4, h5, h6⟩ := ih (set h n (some s)) (n + 1) (fun a ha => by rw [set_ne _ _ (by omega)]; exact hn a (by omega))
      refine ⟨Nat.le_trans (Nat.le_succ n) h1, ?_, h3, ?_, ?_, ?_⟩
      · intro a ha
        show (dupAll (set h n (some s)) (n + 1) l).1 a = h a
        rw [h2 a (by omega), set_ne _ _ (by omega)]
      · intro a
        show a ∈ n :: addrs (dupAll (set h n (some s)) (n + 1) l).2.2 ↔ n ≤ a ∧ a < (dupAll (set h n (some s)) (n + 1) l).2.1
        rw [List.mem_cons, h4]
        omega
      · show (n :: addrs (dupAll (set h n (some s)) (n + 1) l).2.2).Nodup
        rw [List.nodup_cons, h4]
        exact ⟨by omega, h5⟩
      · show strings (dupAll (set h n (some s)) (n + 1) l).1 (some n :: (dupAll (set h n (some s)) (n + 1) l).2.2) = _
        simp only [strings]
        rw [h2 n (by omega), set_same, h6]
        rfl

theorem freeAll_spec (p : List (Option Nat)) : ∀ (h : Nat → Option Str), (∀ a ∈ addrs p, (h a).isSome) → (addrs p).Nodup →
    ∃ h', freeAll h p = some h' ∧ ∀ a, h' a = if a ∈ addrs p then none else h a := by
  induction p with
  | nil => intro h _ _; exact ⟨h, rfl, fun a => by simp [addrs]⟩
  | cons x p ih =>
    intro h ha hn
    cases x with
    | none => exact ih h ha hn
    | some b =>
      have hb : (h b).isSome := ha b (by simp [addrs])
      have hn' : b ∉ addrs p ∧ (addrs p).Nodup := by
        have : (b :: addrs p).Nodup := hn
        exact List.nodup_cons.mp this
      obtain ⟨h', e1, e2⟩ := ih (set h b none) (fun a hm => by
        have hne : a ≠ b := fun e => hn'.1 (e ▸ hm)
        rw [set_ne _ _ hne]
        exact ha a (by show a ∈ b :: addrs p; exact List.mem_cons_of_mem _ hm)) hn'.2
      refine ⟨h', by simp only [freeAll, hb, if_true]; exact e1, fun a => ?_⟩
      rw [e2]
      show _ = if a ∈ b :: addrs p then none else h a
      by_cases h1 : a ∈ addrs p
      · simp [h1]
      · by_cases h2 : a = b
        · simp [h2, set_same]
        · simp [h1, h2, set_ne]

theorem strings_congr (p : List (Option Nat)) (h h' : Nat → Option Str) (he : ∀ a ∈ addrs p, h a = h' a) : strings h p = strings h' p := by
  induction p with
  | nil => rfl
  | cons x p ih =>
    cases x with
    | none =>
      have := ih he
      simp only [strings, this]
    | some b =>
      have h1 := ih (fun a ha => he a (by show a ∈ b :: addrs p; exact List.mem_cons_of_mem _ ha))
      have h2 := he b (by show b ∈ b :: addrs p; exact List.mem_cons_self)
      simp only [strings, h1, h2]

theorem strings_append_null (p : List (Option Nat)) (h : Nat → Option Str) (l : List (Option Str)) (hs : strings h p = some l) :
    strings h (p ++ [none]) = some (l ++ [none]) := by
  induction p generalizing l with
  | nil => cases hs; rfl
  | cons x p ih =>
    cases x with
    | none =>
      simp only [strings] at hs
      cases h1 : strings h p with
      | none => rw [h1] at hs; cases hs
      | some m =>
        rw [h1] at hs; cases hs
        show (strings h (p ++ [none])).map _ = _
        rw [ih m h1]; rfl
    | some b =>
      simp only [strings] at hs
      cases hb : h b with
      | none => rw [hb] at hs; cases hs
      | some s =>
        rw [hb] at hs
        cases h1 : strings h p with
        | none => rw [h1] at hs; cases hs
        | some m =>
          rw [h1] at hs; cases hs
          simp only [List.cons_append, strings, hb]
          rw [ih m h1]; rfl

theorem addrs_append_null (p : List (Option Nat)) : addrs (p ++ [none]) = addrs p := by simp [addrs]

/-- The heap belongs to the objects: every block to one entry of one object. -/
structure Inv (s : St) (g : Val) : Prop where
  fresh : ∀ a, s.next ≤ a → s.heap a = none
  val : ∀ v, (s.obj v).bind (strings s.heap) = g v ∧ (s.obj v = none ↔ g v = none)
  nodup : ∀ v p, s.obj v = some p → (addrs p).Nodup ∧ ∀ a ∈ addrs p, (s.heap a).isSome
  apart : ∀ v w p q a, s.obj v = some p → s.obj w = some q → a ∈ addrs p → a ∈ addrs q → v = w
  owned : ∀ a, (s.heap a).isSome → ∃ v p, s.obj v = some p ∧ a ∈ addrs p

theorem inv_start : Inv start (fun _ => none) :=
  ⟨fun _ _ => rfl, fun _ => ⟨rfl, by simp [start]⟩, fun v p h => by simp [start] at h, fun v w p q a h => by simp [start] at h,
   fun a h => by simp [start] at h⟩

theorem addr_lt {s : St} {g : Val} (hi : Inv s g) {v : Nat} {p : List (Option Nat)} (hp : s.obj v = some p) {a : Nat} (ha : a ∈ addrs p) : a < s.next := by
  rcases Nat.lt_or_ge a s.next with h | h
  · exact h
  · have := (hi.nodup v p hp).2 a ha
    rw [hi.fresh a h] at this
    cases this

/-- A new object in a variable that holds none. -/
theorem inv_new {s : St} {g : Val} (hi : Inv s g) (v : Nat) (hv : s.obj v = none) (l : List (Option Str)) (l' : List (Option Str)) (q : List (Option Nat))
    (hq : addrs q = addrs (dupAll s.heap s.next l).2.2) (hl : strings (dupAll s.heap s.next l).1 q = some l') :
    Inv ⟨(dupAll s.heap s.next l).1, (dupAll s.heap s.next l).2.1, set s.obj v (some q)⟩ (fun x => if x = v then some l' else g x) := by
  obtain ⟨h1, h2, h3, h4, h5, h6⟩ := dupAll_spec l s.heap s.next hi.fresh
  generalize hr : dupAll s.heap s.next l = r at *
  have hsame : ∀ w p, s.obj w = some p → ∀ a ∈ addrs p, r.1 a = s.heap a := fun w p hp a ha => h2 a (addr_lt hi hp ha)
  constructor
  · exact h3
  · intro w
    by_cases hw : w = v
    · subst hw
      simp only [set_same, if_true]
      exact ⟨hl, by simp⟩
    · simp only [set_ne _ _ hw, hw, if_false]
      refine ⟨?_, (hi.val w).2⟩
      rw [← (hi.val w).1]
      cases hp : s.obj w with
      | none => rfl
      | some p => exact strings_congr p _ _ (hsame w p hp)
  · intro w p hp
    by_cases hw : w = v
    · subst hw
      simp only [set_same, Option.some.injEq] at hp
      subst hp
      rw [hq]
      refine ⟨h5, fun a ha => ?_⟩
      have hs : ∀ (p : List (Option Nat)) (m : List (Option Str)), strings r.1 p = some m → ∀ a ∈ addrs p, (r.1 a).isSome := by
        intro p
        induction p with
        | nil => intro m _ a ha; simp [addrs] at ha
        | cons x p ih =>
          intro m hm a ha
          cases x with
          | none =>
            simp only [strings] at hm
            cases e : strings r.1 p with
            | none => rw [e] at hm; cases hm
            | some m' => exact ih m' e a ha
          | some b =>
            simp only [strings] at hm
            cases hb : r.1 b with
            | none => rw [hb] at hm; cases hm
            | some s' =>
              rw [hb] at hm
              have ha' : a ∈ b :: addrs p := ha
              rcases List.mem_cons.mp ha' with rfl | ha'
              · rw [hb]; rfl
              · cases e : strings r.1 p with
                | none => rw [e] at hm; cases hm
                | some m' => exact ih m' e a ha'
      exact hs _ _ h6 a ha
    · simp only [set_ne _ _ hw] at hp
      refine ⟨(hi.nodup w p hp).1, fun a ha => ?_⟩
      show (r.1 a).isSome
      rw [hsame w p hp a ha]
      exact (hi.nodup w p hp).2 a ha
  · intro w x p p' a hp hx ha ha'
    by_cases hw : w = v
    · by_cases hxv : x = v
      · rw [hw, hxv]
      · subst hw
        simp only [set_same, Option.some.injEq] at hp
        simp only [set_ne _ _ hxv] at hx
        subst hp
        rw [hq, h4] at ha
        have := addr_lt hi hx ha'
        omega
    · by_cases hxv : x = v
      · subst hxv
        simp only [set_same, Option.some.injEq] at hx
        simp only [set_ne _ _ hw] at hp
        subst hx
        rw [hq, h4] at ha'
        have := addr_lt hi hp ha
        omega
      · simp only [set_ne _ _ hw] at hp
        simp only [set_ne _ _ hxv] at hx
        exact hi.apart w x p p' a hp hx ha ha'
  · intro a ha
    rcases Nat.lt_or_ge a s.next with h | h
    · have ha' : (r.1 a).isSome := ha
      rw [h2 a h] at ha'
      obtain ⟨w, p, hp, hm⟩ := hi.owned a ha'
      have hw : w ≠ v := fun e => by rw [e, hv] at hp; cases hp
      exact ⟨w, p, by simp only [set_ne _ _ hw]; exact hp, hm⟩
    · refine ⟨v, q, by simp only [set_same], ?_⟩
      rw [hq, h4]
      refine ⟨h, ?_⟩
      rcases Nat.lt_or_ge a r.2.1 with h' | h'
      · exact h'
      · have ha' : (r.1 a).isSome := ha
        rw [h3 a h'] at ha'
        cases ha'

/-- The end of an object. -/
theorem inv_free {s : St} {g : Val} (hi : Inv s g) (v : Nat) (old : List (Option Nat)) (ho : s.obj v = some old) :
    ∃ h, freeAll s.heap old = some h ∧ (∀ a, h a = if a ∈ addrs old then none else s.heap a) ∧
      Inv ⟨h, s.next, set s.obj v none⟩ (fun x => if x = v then none else g x) := by
  obtain ⟨h, e1, e2⟩ := freeAll_spec old s.heap (hi.nodup v old ho).2 (hi.nodup v old ho).1
  have hsame : ∀ w p, w ≠ v → s.obj w = some p → ∀ a ∈ addrs p, h a = s.heap a := by
    intro w p hw hp a ha
    rw [e2, if_neg (fun hm => hw (hi.apart w v p old a hp ho ha hm))]
  refine ⟨h, e1, e2, ?_⟩
  constructor
  · intro a ha
    show h a = none
    rw [e2]
    split
    · rfl
    · exact hi.fresh a ha
  · intro w
    by_cases hw : w = v
    · subst hw
      simp [set_same]
    · simp only [set_ne _ _ hw, hw, if_false]
      refine ⟨?_, (hi.val w).2⟩
      rw [← (hi.val w).1]
      cases hp : s.obj w with
      | none => rfl
      | some p => exact strings_congr p _ _ (hsame w p hw hp)
  · intro w p hp
    by_cases hw : w = v
    · subst hw; simp only [set_same] at hp; cases hp
    · simp only [set_ne _ _ hw] at hp
      refine ⟨(hi.nodup w p hp).1, fun a ha => ?_⟩
      show (h a).isSome
      rw [hsame w p hw hp a ha]
      exact (hi.nodup w p hp).2 a ha
  · intro w x p p' a hp hx ha ha'
    by_cases hw : w = v
    · subst hw; simp only [set_same] at hp; cases hp
    · by_cases hxv : x = v
      · subst hxv; simp only [set_same] at hx; cases hx
      · simp only [set_ne _ _ hw] at hp
        simp only [set_ne _ _ hxv] at hx
        exact hi.apart w x p p' a hp hx ha ha'
  · intro a ha
    have ha' : (h a).isSome := ha
    rw [e2] at ha'
    by_cases hm : a ∈ addrs old
    · rw [if_pos hm] at ha'; cases ha'
    · rw [if_neg hm] at ha'
      obtain ⟨w, p, hp, hm'⟩ := hi.owned a ha'
      have hw : w ≠ v := fun e => by
        subst e
        rw [ho] at hp
        cases hp
        exact hm hm'
      exact ⟨w, p, by simp only [set_ne _ _ hw]; exact hp, hm'⟩

theorem inv_exec (k : Codec) {s : St} {g : Val} (hi : Inv s g) (o : Op) : ∃ s', exec k s o = some s' ∧ Inv s' (specStep k g o) := by
  have hg : ∀ v p, s.obj v = some p → ∃ l, strings s.heap p = some l ∧ g v = some l := by
    intro v p hp
    have h1 := (hi.val v).1
    have h2 := (hi.val v).2
    rw [hp] at h1 h2
    cases hgv : g v with
    | none => rw [hgv] at h2; simp at h2
    | some l => rw [hgv] at h1; exact ⟨l, h1, rfl⟩
  have hgn : ∀ v, s.obj v = none → g v = none := fun v hv => ((hi.val v).2).mp hv
  cases o with
  | new v args =>
    cases hv : s.obj v with
    | some p =>
      obtain ⟨l, _, hl⟩ := hg v p hv
      exact ⟨s, by simp only [exec, hv], by simp only [specStep, hl]; exact hi⟩
    | none =>
      refine ⟨_, by simp only [exec, hv]; rfl, ?_⟩
      simp only [specStep, hgn v hv]
      exact inv_new hi v hv _ _ _ (addrs_append_null _) (strings_append_null _ _ _ (dupAll_spec _ _ _ hi.fresh).2.2.2.2.2)
  | newWide v args =>
    cases hv : s.obj v with
    | some p =>
      obtain ⟨l, _, hl⟩ := hg v p hv
      exact ⟨s, by simp only [exec, hv], by simp only [specStep, hl]; exact hi⟩
    | none =>
      refine ⟨_, by simp only [exec, hv]; rfl, ?_⟩
      simp only [specStep, hgn v hv]
      exact inv_new hi v hv _ _ _ (addrs_append_null _) (strings_append_null _ _ _ (dupAll_spec _ _ _ hi.fresh).2.2.2.2.2)
  | copy v src =>
    cases hv : s.obj v with
    | some p =>
      obtain ⟨l, _, hl⟩ := hg v p hv
      exact ⟨s, by simp only [exec, hv], by simp only [specStep, hl]; exact hi⟩
    | none =>
      cases hs : s.obj src with
      | none => exact ⟨s, by simp only [exec, hv, hs], by simp only [specStep, hgn v hv, hgn src hs]; exact hi⟩
      | some p =>
        obtain ⟨l, h1, hl⟩ := hg src p hs
        refine ⟨_, by simp only [exec, hv, hs, h1]; rfl, ?_⟩
        simp only [specStep, hgn v hv, hl]
        exact inv_new hi v hv l l _ rfl (dupAll_spec _ _ _ hi.fresh).2.2.2.2.2
  | assign v src =>
    cases hv : s.obj v with
    | none => exact ⟨s, by simp only [exec, hv], by simp only [specStep, hgn v hv]; exact hi⟩
    | some old =>
      obtain ⟨lo, _, hlo⟩ := hg v old hv
      cases hs : s.obj src with
      | none => exact ⟨s, by simp only [exec, hv, hs], by simp only [specStep, hlo, hgn src hs]; exact hi⟩
      | some p =>
        obtain ⟨l, h1, hl⟩ := hg src p hs
        by_cases he : v = src
        · refine ⟨s, by simp only [exec, hv, hs, he, if_true], ?_⟩
          simp only [specStep, hlo, hl]
          have : (fun x => if x = v then some l else g x) = g := by
            funext x
            by_cases hx : x = v
            · simp [hx, he, hl]
            · simp [hx]
          rw [this]; exact hi
        · obtain ⟨h, e1, e2, e3⟩ := inv_free hi v old hv
          have h2 : strings h p = some l := by
            rw [← h1]
            refine strings_congr p _ _ (fun a ha => ?_)
            rw [e2, if_neg (fun hm => he (hi.apart v src old p a hv hs hm ha))]
          refine ⟨_, by simp only [exec, hv, hs, if_neg he, e1, Option.bind_some, h2]; rfl, ?_⟩
          simp only [specStep, hlo, hl]
          have := inv_new e3 v (set_same _ _ _) l l _ rfl (dupAll_spec _ _ _ e3.fresh).2.2.2.2.2
          have e4 : set (set s.obj v none) v (some (dupAll h s.next l).2.2) = set s.obj v (some (dupAll h s.next l).2.2) := by
            funext x; by_cases hx : x = v <;> simp [set, hx]
          have e5 : (fun x => if x = v then some l else (fun x => if x = v then none else g x) x) = (fun x => if x = v then some l else g x) := by
            funext x; by_cases hx : x = v <;> simp [hx]
          rw [← e5]
          simp only [e4] at this
          exact this
  | destroy v =>
    cases hv : s.obj v with
    | none =>
      refine ⟨s, by simp only [exec, hv], ?_⟩
      have : specStep k g (.destroy v) = g := by
        funext x
        simp only [specStep]
        by_cases hx : x = v
        · simp [hx, hgn v hv]
        · simp [hx]
      rw [this]; exact hi
    | some old =>
      obtain ⟨h, e1, _, e3⟩ := inv_free hi v old hv
      exact ⟨_, by simp only [exec, hv, e1]; rfl, e3⟩

theorem inv_run (k : Codec) (l : List Op) : ∀ {s : St} {g : Val}, Inv s g → ∃ s', run k s l = some s' ∧ Inv s' (specRun k g l) := by
  induction l with
  | nil => intro s g h; exact ⟨s, rfl, h⟩
  | cons o l ih =>
    intro s g h
    obtain ⟨s1, e1, h1⟩ := inv_exec k h o
    obtain ⟨s2, e2, h2⟩ := ih h1
    exact ⟨s2, by simp only [run, e1, Option.bind_some]; exact e2, h2⟩

/-- **C263** (ownership): whatever objects are made, copied, assigned (to themselves too) and destroyed, no block is used or freed after it was
freed; every object's argv has the strings it was given, whatever happens to the others; and when no object is left, no block is. -/
theorem C263_ownership (k : Codec) (l : List Op) : ∃ s, run k start l = some s ∧ (∀ v, argv s v = specRun k (fun _ => none) l v) ∧
    ((∀ v, specRun k (fun _ => none) l v = none) → ∀ a, s.heap a = none) := by
  obtain ⟨s, e, hi⟩ := inv_run k l inv_start
  refine ⟨s, e, fun v => (hi.val v).1, fun hn a => ?_⟩
  cases ha : s.heap a with
  | none => rfl
  | some x =>
    obtain ⟨v, p, hp, _⟩ := hi.owned a (by rw [ha]; rfl)
    have := ((hi.val v).2).mpr (hn v)
    rw [hp] at this; cases this

/-- The full statement about argv: argc strings and then a null pointer, whichever constructor was used. -/
def C263_statement : Prop := ∀ (k : Codec) (l : List Op) (s : St) (v : Nat) (p : List (Option Nat)), run k start l = some s → s.obj v = some p →
  ∃ strs : List Str, strs.length = argc p ∧ argv s v = some (strs.map some ++ [none])

/-- **C263** (refuted): a wide argument that the locale has no characters for leaves a null pointer before the end. -/
theorem C263_refuted : ¬ C263_statement := by
  intro h
  obtain ⟨strs, h1, h2⟩ := h ascii [.newWide 0 [[8364], [97]]] _ 0 _ rfl rfl
  have h3 : argv ((run ascii start [.newWide 0 [[8364], [97]]]).getD start) 0 = some [none, some (c!"a"), none] := by decide +kernel
  have h4 : some (strs.map some ++ [none]) = some [none, some (c!"a"), none] := by rw [← h2, ← h3]; rfl
  cases strs with
  | nil => simp at h4
  | cons x xs => simp at h4

/-- No wide argument without an encoding. -/
def Encodable (k : Codec) (l : List Op) : Prop := ∀ v args, Op.newWide v args ∈ l → ∀ w ∈ args, (k.encode w).isSome

/-- **C263** (what holds): so it is when every wide argument has an encoding. -/
theorem C263_argv_partial (k : Codec) (l : List Op) (he : Encodable k l) (s : St) (v : Nat) (p : List (Option Nat)) (hr : run k start l = some s)
    (hp : s.obj v = some p) : ∃ strs : List Str, strs.length = argc p ∧ argv s v = some (strs.map some ++ [none]) := by
  have key : ∀ (l : List Op) (g : Val), Encodable k l → (∀ v x, g v = some x → ∃ strs : List Str, x = strs.map some ++ [none]) →
      ∀ v x, specRun k g l v = some x → ∃ strs : List Str, x = strs.map some ++ [none] := by
    intro l
    induction l with
    | nil => intro g _ hg; exact hg
    | cons o l ih =>
      intro g he hg
      refine ih _ (fun v args hm => he v args (List.mem_cons_of_mem _ hm)) ?_
      intro w x hx
      cases o with
      | new v args =>
        simp only [specStep] at hx
        cases hv : g v with
        | some y => rw [hv] at hx; exact hg w x hx
        | none =>
          rw [hv] at hx
          simp only at hx
          split at hx
          · cases hx; exact ⟨args, rfl⟩
          · exact hg w x hx
      | newWide v args =>
        simp only [specStep] at hx
        cases hv : g v with
        | some y => rw [hv] at hx; exact hg w x hx
        | none =>
          rw [hv] at hx
          simp only at hx
          split at hx
          · cases hx
            have h1 := he v args List.mem_cons_self
            refine ⟨args.map (fun w => (k.encode w).getD []), ?_⟩
            congr 1
            rw [List.map_map]
            refine List.map_congr_left (fun w hw => ?_)
            cases hw' : k.encode w with
            | none => have := h1 w hw; rw [hw'] at this; cases this
            | some y => simp [hw']
          · exact hg w x hx
      | copy v src =>
        cases hv : g v with
        | some y => simp only [specStep, hv] at hx; exact hg w x hx
        | none =>
          cases hs : g src with
          | none => simp only [specStep, hv, hs] at hx; exact hg w x hx
          | some y =>
            simp only [specStep, hv, hs] at hx
            split at hx
            · cases hx; exact hg src _ hs
            · exact hg w x hx
      | assign v src =>
        cases hv : g v with
        | none => simp only [specStep, hv] at hx; exact hg w x hx
        | some z =>
          cases hs : g src with
          | none => simp only [specStep, hv, hs] at hx; exact hg w x hx
          | some y =>
            simp only [specStep, hv, hs] at hx
            split at hx
            · cases hx; exact hg src _ hs
            · exact hg w x hx
      | destroy v =>
        simp only [specStep] at hx
        split at hx
        · cases hx
        · exact hg w x hx
  obtain ⟨s', e, hi⟩ := inv_run k l inv_start
  rw [hr] at e
  cases e
  have h1 : argv s v = specRun k (fun _ => none) l v := (hi.val v).1
  cases hx : specRun k (fun _ => none) l v with
  | none =>
    have := ((hi.val v).2).mpr hx
    rw [hp] at this; cases this
  | some x =>
    obtain ⟨strs, hs⟩ := key l _ he (fun v x h => by cases h) v x hx
    refine ⟨strs, ?_, by rw [h1, hx, hs]⟩
    have h2 : strings s.heap p = some x := by
      have := h1
      rw [hx] at this
      simp only [argv, hp, Option.bind_some] at this
      exact this
    have hlen : ∀ (p : List (Option Nat)) (m : List (Option Str)), strings s.heap p = some m → m.length = p.length := by
      intro p
      induction p with
      | nil => intro m hm; cases hm; rfl
      | cons y p ih =>
        intro m hm
        cases y with
        | none =>
          simp only [strings] at hm
          cases e : strings s.heap p with
          | none => rw [e] at hm; cases hm
          | some m' => rw [e] at hm; cases hm; simp [ih m' e]
        | some b =>
          simp only [strings] at hm
          cases hb : s.heap b with
          | none => rw [hb] at hm; cases hm
          | some z =>
            rw [hb] at hm
            cases e : strings s.heap p with
            | none => rw [e] at hm; cases hm
            | some m' => rw [e] at hm; cases hm; simp [ih m' e]
    have := hlen p x h2
    rw [hs] at this
    simp at this
    unfold argc
    omega

/-- A history with a copy, an assignment to itself, an assignment and an end. -/
def demo : St := (run ascii start [.new 0 [c!"a", c!"b"], .copy 1 0, .assign 0 0, .new 2 [], .assign 1 2, .destroy 2]).getD start
example : argv demo 0 = some [some (c!"a"), some (c!"b"), none] ∧ argv demo 1 = some [none] ∧ argv demo 2 = none := by decide +kernel

end Vital.Sys.Enc.Args
