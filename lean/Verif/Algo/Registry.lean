import Verif.Algo.Model
/-
  Properties of the algorithm registry: C45, C86, C87.
-/
namespace Vital.Algo
open Vital Vital.Config

variable {δ : Type}

/-! ### Specification vocabulary -/

/-- The full name under which an object registers itself. -/
def Inst.fullName (L : Lib δ) (o : Inst δ) : Str := L.typeName o.cls ++ c!":" ++ o.impl

/-- In history `ops`, the last successful registration under the full name `q` was of object `a`. -/
def LastRegistered (L : Lib δ) (ops : List (AOp δ)) (q : Str) (a : Nat) : Prop :=
  ∃ pre post o, ops = pre ++ .register (some a) :: post ∧ (run L pre).objs[a]? = some o ∧
    o.fullName L = q ∧
    ∀ p b p', post = p ++ .register (some b) :: p' →
      ∀ o', (run L (pre ++ .register (some a) :: p)).objs[b]? = some o' → o'.fullName L ≠ q

/-- The same for the name list of one abstract class. -/
def LastRegisteredCls (L : Lib δ) (ops : List (AOp δ)) (c : Nat) (i : Str) (a : Nat) : Prop :=
  ∃ pre post o, ops = pre ++ .register (some a) :: post ∧ (run L pre).objs[a]? = some o ∧
    (o.cls = c ∧ o.impl = i) ∧
    ∀ p b p', post = p ++ .register (some b) :: p' →
      ∀ o', (run L (pre ++ .register (some a) :: p)).objs[b]? = some o' → ¬ (o'.cls = c ∧ o'.impl = i)

/-! ### Lemmas -/

theorem run_snoc (L : Lib δ) (ops : List (AOp δ)) (op : AOp δ) :
    run L (ops ++ [op]) = step L (run L ops) op := by simp [run]

/-- Last registration of an object with property `P`. -/
def LastWith (L : Lib δ) (P : Inst δ → Prop) (ops : List (AOp δ)) (a : Nat) : Prop :=
  ∃ pre post o, ops = pre ++ .register (some a) :: post ∧ (run L pre).objs[a]? = some o ∧ P o ∧
    ∀ p b p', post = p ++ .register (some b) :: p' →
      ∀ o', (run L (pre ++ .register (some a) :: p)).objs[b]? = some o' → ¬ P o'

theorem lastWith_nil (L : Lib δ) (P : Inst δ → Prop) (a : Nat) : ¬ LastWith L P [] a := by
  rintro ⟨pre, post, o, h, _⟩; simp at h

theorem snoc_split {α : Type} {ops pre post : List α} {op x : α} (h : ops ++ [op] = pre ++ x :: post) :
    (post = [] ∧ ops = pre ∧ op = x) ∨ ∃ post', post = post' ++ [op] ∧ ops = pre ++ x :: post' := by
  rcases List.eq_nil_or_concat post with rfl | ⟨post', y, rfl⟩
  · left
    have := List.append_inj' h rfl
    exact ⟨rfl, this.1, by simpa using this.2⟩
  · right
    have h' : ops ++ [op] = (pre ++ x :: post') ++ [y] := by simpa using h
    have := List.append_inj' h' rfl
    have e : op = y := by simpa using this.2
    exact ⟨post', by simp [e], this.1⟩

theorem lastWith_other (L : Lib δ) (P : Inst δ → Prop) (ops : List (AOp δ)) (op : AOp δ) (a : Nat)
    (hop : ∀ b, op = .register (some b) → ∀ o, (run L ops).objs[b]? = some o → ¬ P o) :
    LastWith L P (ops ++ [op]) a ↔ LastWith L P ops a := by
  constructor
  · rintro ⟨pre, post, o, h, ho, hP, hl⟩
    rcases snoc_split h with ⟨rfl, rfl, rfl⟩ | ⟨post', rfl, rfl⟩
    · exact absurd hP (hop a rfl o ho)
    · exact ⟨pre, post', o, rfl, ho, hP, fun p b p' e o' ho' =>
        hl p b (p' ++ [op]) (by rw [e]; simp) o' ho'⟩
  · rintro ⟨pre, post, o, rfl, ho, hP, hl⟩
    refine ⟨pre, post ++ [op], o, by simp, ho, hP, ?_⟩
    intro p b p' e o' ho'
    rcases snoc_split e with ⟨rfl, rfl, rfl⟩ | ⟨post', rfl, rfl⟩
    · exact hop b rfl o' ho'
    · exact hl p b post' rfl o' ho'

theorem lastWith_this (L : Lib δ) (P : Inst δ → Prop) (ops : List (AOp δ)) (b : Nat) {o : Inst δ}
    (ho : (run L ops).objs[b]? = some o) (hP : P o) (a : Nat) :
    LastWith L P (ops ++ [.register (some b)]) a ↔ a = b := by
  constructor
  · rintro ⟨pre, post, o', h, ho', hP', hl⟩
    rcases snoc_split h with ⟨rfl, rfl, e⟩ | ⟨post', rfl, rfl⟩
    · simpa using e.symm
    · exact absurd hP (hl post' b [] rfl o ho)
  · rintro rfl
    exact ⟨ops, [], o, rfl, ho, hP, by intro p b p' e; simp at e⟩

theorem step_quals (L : Lib δ) (s : St δ) (op : AOp δ) : (step L s op).quals =
    (match op with
     | .register (some a) => match s.objs[a]? with
       | none => s.quals
       | some o => s.quals.insert (o.fullName L) a
     | _ => s.quals) := by
  cases op with
  | new o => rfl
  | write a d => simp only [step]; split <;> rfl
  | register i =>
    cases i with
    | none => rfl
    | some a =>
      simp only [step, registerInstance]
      cases s.objs[a]? <;> rfl
  | create t i =>
    simp only [step, create, cloneObj]
    cases s.quals.find? (qualified t i) with
    | none => rfl
    | some a => simp only; cases s.objs[a]? <;> rfl
  | createCls c i =>
    simp only [step, createCls, cloneObj]
    cases (s.byCls c).find? i with
    | none => rfl
    | some a => simp only; cases s.objs[a]? <;> rfl

theorem step_byCls (L : Lib δ) (s : St δ) (op : AOp δ) (c : Nat) : (step L s op).byCls c =
    (match op with
     | .register (some a) => match s.objs[a]? with
       | none => s.byCls c
       | some o => if c = o.cls then (s.byCls o.cls).insert o.impl a else s.byCls c
     | _ => s.byCls c) := by
  cases op with
  | new o => rfl
  | write a d => simp only [step]; split <;> rfl
  | register i =>
    cases i with
    | none => rfl
    | some a =>
      simp only [step, registerInstance]
      cases s.objs[a]? <;> rfl
  | create t i =>
    simp only [step, create, cloneObj]
    cases s.quals.find? (qualified t i) with
    | none => rfl
    | some a => simp only; cases s.objs[a]? <;> rfl
  | createCls c i =>
    simp only [step, createCls, cloneObj]
    cases (s.byCls c).find? i with
    | none => rfl
    | some a => simp only; cases s.objs[a]? <;> rfl

/-- Objects are never removed and never change class or name. -/
theorem step_objs (L : Lib δ) (s : St δ) (op : AOp δ) {a : Nat} {o : Inst δ} (h : s.objs[a]? = some o) :
    ∃ o', (step L s op).objs[a]? = some o' ∧ o'.cls = o.cls ∧ o'.impl = o.impl ∧ o'.descr = o.descr := by
  have hlt : a < s.objs.length := (List.getElem?_eq_some_iff.1 h).1
  have app : ∀ x, (s.objs ++ [x])[a]? = some o := fun x => by
    rw [List.getElem?_append_left hlt]; exact h
  cases op with
  | new x => exact ⟨o, app x, rfl, rfl, rfl⟩
  | write b d =>
    simp only [step]
    cases hb : s.objs[b]? with
    | none => exact ⟨o, h, rfl, rfl, rfl⟩
    | some ob =>
      simp only
      by_cases e : b = a
      · subst e
        rw [h] at hb; cases hb
        exact ⟨{ o with data := d }, by rw [List.getElem?_set]; simp [hlt], rfl, rfl, rfl⟩
      · exact ⟨o, by rw [List.getElem?_set]; simp [e, h], rfl, rfl, rfl⟩
  | register i =>
    cases i with
    | none => exact ⟨o, h, rfl, rfl, rfl⟩
    | some b =>
      simp only [step, registerInstance]
      cases s.objs[b]? <;> exact ⟨o, h, rfl, rfl, rfl⟩
  | create t i =>
    simp only [step, create, cloneObj]
    cases s.quals.find? (qualified t i) with
    | none => exact ⟨o, h, rfl, rfl, rfl⟩
    | some b =>
      simp only
      cases s.objs[b]? with
      | none => exact ⟨o, h, rfl, rfl, rfl⟩
      | some x => exact ⟨o, app x, rfl, rfl, rfl⟩
  | createCls c i =>
    simp only [step, createCls, cloneObj]
    cases (s.byCls c).find? i with
    | none => exact ⟨o, h, rfl, rfl, rfl⟩
    | some b =>
      simp only
      cases s.objs[b]? with
      | none => exact ⟨o, h, rfl, rfl, rfl⟩
      | some x => exact ⟨o, app x, rfl, rfl, rfl⟩

theorem snocInduct {α : Type} {P : List α → Prop} (h0 : P []) (hs : ∀ l x, P l → P (l ++ [x])) :
    ∀ l, P l := by
  intro l
  have : ∀ r : List α, P r.reverse := by
    intro r
    induction r with
    | nil => exact h0
    | cons x r ih => rw [List.reverse_cons]; exact hs _ _ ih
  simpa using this l.reverse

theorem quals_iff (L : Lib δ) (ops : List (AOp δ)) : ∀ (q : Str) (a : Nat),
    (run L ops).quals.find? q = some a ↔ LastRegistered L ops q a := by
  show ∀ (q : Str) (a : Nat), (run L ops).quals.find? q = some a ↔ LastWith L (fun o => o.fullName L = q) ops a
  induction ops using snocInduct with
  | h0 => intro q a; simp [run, St.init, OMap.find?, lastWith_nil]
  | hs ops op ih =>
    intro q a
    rw [run_snoc, step_quals]
    have plain : (∀ b, op = .register (some b) → ∀ o, (run L ops).objs[b]? = some o → ¬ o.fullName L = q) →
        ((run L ops).quals.find? q = some a ↔ LastWith L (fun o => o.fullName L = q) (ops ++ [op]) a) := by
      intro h
      rw [lastWith_other _ _ _ _ _ h, ih]
    cases op with
    | new o => exact plain (by simp)
    | write a d => exact plain (by simp)
    | create t i => exact plain (by simp)
    | createCls c i => exact plain (by simp)
    | register i =>
      cases i with
      | none => exact plain (by simp)
      | some b =>
        simp only
        cases ho : (run L ops).objs[b]? with
        | none => exact plain (by intro b' e o' ho'; cases e; rw [ho] at ho'; cases ho')
        | some o =>
          simp only
          by_cases e : o.fullName L = q
          · rw [← e, OMap.find?_insert_self, lastWith_this L _ ops b ho (by rfl)]
            simp [eq_comm]
          · rw [OMap.find?_insert_ne _ _ (Ne.symm e)]
            exact plain (by intro b' e' o' ho'; cases e'; rw [ho] at ho'; cases ho'; exact e)

theorem byCls_iff (L : Lib δ) (ops : List (AOp δ)) : ∀ (c : Nat) (i : Str) (a : Nat),
    ((run L ops).byCls c).find? i = some a ↔ LastRegisteredCls L ops c i a := by
  show ∀ (c : Nat) (i : Str) (a : Nat),
    ((run L ops).byCls c).find? i = some a ↔ LastWith L (fun o => o.cls = c ∧ o.impl = i) ops a
  induction ops using snocInduct with
  | h0 => intro c i a; simp [run, St.init, OMap.find?, lastWith_nil]
  | hs ops op ih =>
    intro c i a
    rw [run_snoc, step_byCls]
    have plain : (∀ b, op = .register (some b) → ∀ o, (run L ops).objs[b]? = some o → ¬ (o.cls = c ∧ o.impl = i)) →
        (((run L ops).byCls c).find? i = some a ↔ LastWith L (fun o => o.cls = c ∧ o.impl = i) (ops ++ [op]) a) := by
      intro h
      rw [lastWith_other _ _ _ _ _ h, ih]
    cases op with
    | new o => exact plain (by simp)
    | write a d => exact plain (by simp)
    | create t i => exact plain (by simp)
    | createCls c i => exact plain (by simp)
    | register x =>
      cases x with
      | none => exact plain (by simp)
      | some b =>
        simp only
        cases ho : (run L ops).objs[b]? with
        | none => exact plain (by intro b' e o' ho'; cases e; rw [ho] at ho'; cases ho')
        | some o =>
          simp only
          by_cases ec : c = o.cls
          · rw [if_pos ec]
            by_cases e : o.impl = i
            · rw [← e, OMap.find?_insert_self, lastWith_this L _ ops b ho ⟨ec.symm, rfl⟩]
              simp [eq_comm]
            · rw [OMap.find?_insert_ne _ _ (Ne.symm e), ← ec]
              exact plain (by intro b' e' o' ho'; cases e'; rw [ho] at ho'; cases ho'; exact fun h => e h.2)
          · rw [if_neg ec]
            exact plain (by intro b' e' o' ho'; cases e'; rw [ho] at ho'; cases ho'; exact fun h => ec h.1.symm)

theorem run_objs (L : Lib δ) (ops : List (AOp δ)) (s : St δ) {a : Nat} {o : Inst δ} (h : s.objs[a]? = some o) :
    ∃ o', (ops.foldl (step L) s).objs[a]? = some o' ∧ o'.cls = o.cls ∧ o'.impl = o.impl ∧ o'.descr = o.descr := by
  induction ops generalizing s o with
  | nil => exact ⟨o, h, rfl, rfl, rfl⟩
  | cons op ops ih =>
    obtain ⟨o1, e1, e2, e3, e4⟩ := step_objs L s op h
    obtain ⟨o2, f1, f2, f3, f4⟩ := ih _ e1
    exact ⟨o2, f1, f2.trans e2, f3.trans e3, f4.trans e4⟩

/-- A registered object still exists, with the class and name it was registered with. -/
theorem last_live {L : Lib δ} {P : Inst δ → Prop} {ops : List (AOp δ)} {a : Nat} (h : LastWith L P ops a) :
    ∃ o o0, (run L ops).objs[a]? = some o ∧ P o0 ∧ o.cls = o0.cls ∧ o.impl = o0.impl ∧ o.descr = o0.descr := by
  obtain ⟨pre, post, o, rfl, ho, hP, _⟩ := h
  obtain ⟨o', e1, e2, e3, e4⟩ := run_objs L (.register (some a) :: post) (run L pre) ho
  exact ⟨o', o, by simpa [run] using e1, hP, e2, e3, e4⟩

theorem quals_sorted (L : Lib δ) (ops : List (AOp δ)) : OMap.Sorted (run L ops).quals := by
  induction ops using snocInduct with
  | h0 => exact OMap.sorted_nil
  | hs ops op ih =>
    rw [run_snoc, step_quals]
    split
    · split
      · exact ih
      · exact OMap.sorted_insert ih _ _
    · exact ih

theorem byCls_sorted (L : Lib δ) (ops : List (AOp δ)) (c : Nat) : OMap.Sorted ((run L ops).byCls c) := by
  induction ops using snocInduct with
  | h0 => exact OMap.sorted_nil
  | hs ops op ih =>
    rw [run_snoc, step_byCls]
    split
    · split
      · exact ih
      · split
        · rename_i e; rw [← e]; exact OMap.sorted_insert ih _ _
        · exact ih
    · exact ih

theorem mem_registered {s : St δ} {t : Str} (ht : t ≠ []) (i : Str) :
    i ∈ registeredNames s t ↔ qualified t i ∈ s.quals.keys := by
  unfold registeredNames
  rw [if_neg ht]
  simp only [List.mem_map, List.mem_filter, Bool.and_eq_true, decide_eq_true_eq, startsWith_iff]
  constructor
  · rintro ⟨q, ⟨hq, _, ⟨r, rfl⟩⟩, rfl⟩
    rw [List.drop_left]
    exact hq
  · intro h
    refine ⟨qualified t i, ⟨h, by simp [qualified], i, rfl⟩, ?_⟩
    show (t ++ c!":" ++ i).drop _ = i
    rw [List.drop_left]

theorem registered_iff (L : Lib δ) (ops : List (AOp δ)) {t : Str} (ht : t ≠ []) (i : Str) :
    i ∈ registeredNames (run L ops) t ↔ ∃ a, LastRegistered L ops (t ++ c!":" ++ i) a := by
  rw [mem_registered ht, OMap.mem_keys_iff, Option.isSome_iff_exists]
  simp only [quals_iff]; rfl

/-! ### C45: what is registered can be found and created -/

/-- After every history: `create(t, i)` yields null, and changes nothing, if nothing was registered
    under that full name; otherwise it yields a new object, equal to the last object that was registered
    under that name as this object is now, at an address that no object had before.  The registered
    object and all others stay as they are, and so does the registry. -/
theorem C45_create (L : Lib δ) (ops : List (AOp δ)) (t i : Str) :
    (∃ a o, LastRegistered L ops (t ++ c!":" ++ i) a ∧ (run L ops).objs[a]? = some o ∧
      create (run L ops) t i =
        ({ run L ops with objs := (run L ops).objs ++ [o] }, .ok (some (run L ops).objs.length))) ∨
    ((¬ ∃ a, LastRegistered L ops (t ++ c!":" ++ i) a) ∧ create (run L ops) t i = (run L ops, .ok none)) := by
  cases hq : (run L ops).quals.find? (qualified t i) with
  | none =>
    right
    refine ⟨?_, by simp only [create, hq]⟩
    rintro ⟨a, ha⟩
    have := (quals_iff L ops _ a).2 ha
    rw [show t ++ c!":" ++ i = qualified t i from rfl, hq] at this; cases this
  | some a =>
    left
    have hl := (quals_iff L ops _ a).1 hq
    obtain ⟨o, _, ho, _⟩ := last_live hl
    exact ⟨a, o, hl, ho, by simp only [create, hq, cloneObj, ho]⟩

/-- `algorithm_def::create`, for the abstract class `c`. -/
theorem C45_create_def (L : Lib δ) (ops : List (AOp δ)) (c : Nat) (i : Str) :
    (∃ a o, LastRegisteredCls L ops c i a ∧ (run L ops).objs[a]? = some o ∧ o.cls = c ∧ o.impl = i ∧
      createCls (run L ops) c i =
        ({ run L ops with objs := (run L ops).objs ++ [o] }, .ok (some (run L ops).objs.length))) ∨
    ((¬ ∃ a, LastRegisteredCls L ops c i a) ∧ createCls (run L ops) c i = (run L ops, .ok none)) := by
  cases hq : ((run L ops).byCls c).find? i with
  | none =>
    right
    refine ⟨?_, by simp only [createCls, hq]⟩
    rintro ⟨a, ha⟩
    have := (byCls_iff L ops c i a).2 ha
    rw [hq] at this; cases this
  | some a =>
    left
    have hl := (byCls_iff L ops c i a).1 hq
    obtain ⟨o, o0, ho, hP, e1, e2, _⟩ := last_live hl
    exact ⟨a, o, hl, ho, e1.trans hP.1, e2.trans hP.2, by simp only [createCls, hq, cloneObj, ho]⟩

/-- Registering succeeds for every object, is refused (and changes nothing) for null, and takes effect
    at once: the object is then the last one registered under its full name. -/
theorem C45_register (L : Lib δ) (ops : List (AOp δ)) :
    registerInstance L (run L ops) none = (run L ops, .ok false) ∧
    ∀ a o, (run L ops).objs[a]? = some o →
      (registerInstance L (run L ops) (some a)).2 = .ok true ∧
      LastRegistered L (ops ++ [.register (some a)]) (L.typeName o.cls ++ c!":" ++ o.impl) a ∧
      LastRegisteredCls L (ops ++ [.register (some a)]) o.cls o.impl a ∧
      (L.typeName o.cls ≠ [] →
        hasImplName (run L (ops ++ [.register (some a)])) (L.typeName o.cls) o.impl = true) := by
  refine ⟨rfl, fun a o ho => ⟨by simp only [registerInstance, ho]; rfl, ?_, ?_, ?_⟩⟩
  · exact (lastWith_this L (fun x => x.fullName L = o.fullName L) ops a ho rfl a).2 rfl
  · exact (lastWith_this L (fun x => x.cls = o.cls ∧ x.impl = o.impl) ops a ho ⟨rfl, rfl⟩ a).2 rfl
  · intro ht
    rw [hasImplName, List.contains_iff_mem, registered_iff L _ ht]
    exact ⟨a, (lastWith_this L (fun x => x.fullName L = o.fullName L) ops a ho rfl a).2 rfl⟩

/-! A concrete history: two classes, three objects, an overwritten registration. -/

def demoLib : Lib Nat where
  typeName c := if c = 0 then c!"image_io" else c!"detect_features"
  getCfg s _ := (s, .error .ub)
  setCfg s _ _ := (s, .ok ())
  checkCfg s _ _ := (s, .ok true)

def demoOps : List (AOp Nat) :=
  [.new ⟨0, c!"ocv", c!"OpenCV", 1⟩, .register (some 0), .new ⟨0, c!"ocv", [], 2⟩, .register none,
   .new ⟨1, c!"orb", [], 3⟩, .register (some 2), .register (some 1), .write 1 5, .create (c!"image_io") (c!"ocv")]

theorem demoOps_last : LastRegistered demoLib demoOps (c!"image_io:ocv") 1 := by
  rw [← quals_iff]; decide +kernel

example : (create (run demoLib demoOps) (c!"image_io") (c!"ocv")).2 = .ok (some 4) ∧
    (create (run demoLib demoOps) (c!"image_io") (c!"ocv")).1.objs[4]? = some ⟨0, c!"ocv", [], 5⟩ ∧
    registeredNames (run demoLib demoOps) [] = [c!"detect_features:orb", c!"image_io:ocv"] ∧
    (create (run demoLib demoOps) (c!"image_io") (c!"orb")).2 = .ok none := by
  refine ⟨?_, ?_, ?_, ?_⟩ <;> decide +kernel

/-- Changing an object that `create` returned does not show in what `create` returns afterwards. -/
theorem C45_clone_is_independent (L : Lib δ) (ops : List (AOp δ)) (t i : Str) (n : Nat) (d : δ)
    (h : (create (run L ops) t i).2 = .ok (some n)) :
    ∃ o, (run L (ops ++ [.create t i])).objs[n]? = some o ∧
      (run L (ops ++ [.create t i, .write n d])).objs[n]? = some { o with data := d } ∧
      (create (run L (ops ++ [.create t i, .write n d])) t i).2 = .ok (some (n + 1)) ∧
      (create (run L (ops ++ [.create t i, .write n d])) t i).1.objs[n + 1]? = some o := by
  rcases C45_create L ops t i with ⟨a, o, hl, ho, hc⟩ | ⟨_, hc⟩
  · rw [hc] at h
    simp only [Except.ok.injEq, Option.some.injEq] at h
    have e1 : run L (ops ++ [.create t i]) = { run L ops with objs := (run L ops).objs ++ [o] } := by
      rw [run_snoc]; simp only [step, hc]
    have ha : a < (run L ops).objs.length := (List.getElem?_eq_some_iff.1 ho).1
    have e2 : run L (ops ++ [.create t i, .write n d]) =
        { run L ops with objs := ((run L ops).objs ++ [o]).set n { o with data := d } } := by
      rw [show ops ++ [.create t i, .write n d] = (ops ++ [.create t i]) ++ [.write n d] by simp, run_snoc, e1]
      simp only [step, ← h]
      rw [List.getElem?_append_right (Nat.le_refl _)]
      simp
    refine ⟨o, by rw [e1, ← h]; simp, by rw [e2, ← h]; simp, ?_, ?_⟩
    · have hq := (quals_iff L ops _ a).2 hl
      rw [e2]
      simp only [create, show qualified t i = t ++ c!":" ++ i from rfl, hq, cloneObj]
      rw [List.getElem?_set]
      rw [if_neg (by omega), List.getElem?_append_left ha, ho]
      simp [← h]
    · have hq := (quals_iff L ops _ a).2 hl
      rw [e2]
      simp only [create, show qualified t i = t ++ c!":" ++ i from rfl, hq, cloneObj]
      rw [List.getElem?_set]
      rw [if_neg (by omega), List.getElem?_append_left ha, ho]
      simp [← h]
  · rw [hc] at h; cases h

/-! ### C86: the name lists -/

/-- `registered_names(t)`, for a non-empty `t`, lists in order and once each exactly the names `i` for
    which something is registered as `t:i`; `registered_names("")` lists all full names in the same
    way; `has_impl_name` and `has_type_name` ask these lists. -/
theorem C86_names (L : Lib δ) (ops : List (AOp δ)) (t : Str) :
    (registeredNames (run L ops) t).Pairwise (fun a b => strLt a b = true) ∧
    (t ≠ [] → ∀ i, (i ∈ registeredNames (run L ops) t ↔ ∃ a, LastRegistered L ops (t ++ c!":" ++ i) a) ∧
      (hasImplName (run L ops) t i = true ↔ ∃ a, LastRegistered L ops (t ++ c!":" ++ i) a)) ∧
    (t ≠ [] → (hasTypeName (run L ops) t = true ↔ ∃ i a, LastRegistered L ops (t ++ c!":" ++ i) a)) ∧
    (∀ q, (q ∈ registeredNames (run L ops) [] ↔ ∃ a, LastRegistered L ops q a)) := by
  have hs := OMap.sorted_keys (quals_sorted L ops)
  refine ⟨?_, fun ht i => ⟨registered_iff L ops ht i, ?_⟩, ?_, ?_⟩
  · unfold registeredNames
    split
    · exact hs
    · simp only
      rw [List.pairwise_map]
      have := hs.filter (fun q => decide ((t ++ c!":").length ≤ q.length) && startsWith q (t ++ c!":"))
      refine List.Pairwise.imp_of_mem ?_ this
      intro a b ha hb hab
      simp only [List.mem_filter, Bool.and_eq_true, startsWith_iff] at ha hb
      obtain ⟨_, _, x, rfl⟩ := ha
      obtain ⟨_, _, y, rfl⟩ := hb
      rw [List.drop_left, List.drop_left]
      have hl : ∀ p x y : Str, strLt (p ++ x) (p ++ y) = strLt x y := by
        intro p x y
        induction p with
        | nil => rfl
        | cons c p ih => simp [strLt, ih]
      rw [← hl (t ++ c!":")]; exact hab
  · rw [hasImplName, List.contains_iff_mem, registered_iff L ops ht]
  · intro ht
    unfold hasTypeName
    cases hn : registeredNames (run L ops) t with
    | nil =>
      simp only [List.isEmpty_nil, Bool.not_true, Bool.false_eq_true, false_iff]
      rintro ⟨i, a, h⟩
      have := (registered_iff L ops ht i).2 ⟨a, h⟩
      rw [hn] at this; cases this
    | cons i l =>
      simp only [List.isEmpty_cons, Bool.not_false, true_iff]
      exact ⟨i, (registered_iff L ops ht i).1 (by rw [hn]; simp)⟩
  · intro q
    unfold registeredNames
    rw [if_pos rfl, OMap.mem_keys_iff, Option.isSome_iff_exists]
    simp only [quals_iff]

/-! ### C87: full names are unambiguous for the type names of the library -/

/-- The type names of the library are distinct, non-empty and without ':'. -/
theorem C87_type_names : vitalTypeNames.Nodup ∧ ∀ t ∈ vitalTypeNames, t ≠ [] ∧ ':' ∉ t := by
  decide +kernel

theorem split_colon : ∀ {t t' i i' : Str}, ':' ∉ t → ':' ∉ t' → t ++ ':' :: i = t' ++ ':' :: i' → t = t' ∧ i = i'
  | [], [], _, _, _, _, h => by simpa using h
  | [], c :: t', _, _, _, h2, h => by simp at h; simp [← h.1] at h2
  | c :: t, [], _, _, h1, _, h => by simp at h; simp [h.1] at h1
  | c :: t, c' :: t', _, _, h1, h2, h => by
    simp only [List.cons_append, List.cons.injEq] at h
    have := split_colon (t := t) (t' := t') (by simp at h1; exact h1.2) (by simp at h2; exact h2.2) h.2
    exact ⟨by rw [h.1, this.1], this.2⟩

/-- When type names are distinct and contain no ':', the registry by full name and the registries of the
    abstract classes agree: `create(type, impl)` and `algorithm_def::create(impl)` find the same object,
    `registered_names(type)` and `algorithm_def::registered_names()` are the same list, and an object
    made by `create(type, impl)` has that type and implementation name. -/
theorem C87_registries_agree (L : Lib δ) (hinj : ∀ c c', L.typeName c = L.typeName c' → c = c')
    (hcol : ∀ c, L.typeName c ≠ [] ∧ ':' ∉ L.typeName c) (ops : List (AOp δ)) (c : Nat) :
    (∀ i, create (run L ops) (L.typeName c) i = createCls (run L ops) c i) ∧
    registeredNames (run L ops) (L.typeName c) = registeredNamesCls (run L ops) c ∧
    (∀ i, hasImplName (run L ops) (L.typeName c) i = hasImplNameCls (run L ops) c i) ∧
    (∀ i n, (create (run L ops) (L.typeName c) i).2 = .ok (some n) →
      ∃ o, (create (run L ops) (L.typeName c) i).1.objs[n]? = some o ∧ o.cls = c ∧ o.impl = i) := by
  have hf : ∀ i, (run L ops).quals.find? (qualified (L.typeName c) i) = ((run L ops).byCls c).find? i := by
    intro i
    have hP : (fun o : Inst δ => o.fullName L = qualified (L.typeName c) i) = (fun o => o.cls = c ∧ o.impl = i) := by
      funext o
      apply propext
      constructor
      · intro h
        have h' : L.typeName o.cls ++ ':' :: o.impl = L.typeName c ++ ':' :: i := by
          simpa [Inst.fullName, qualified] using h
        have := split_colon (hcol _).2 (hcol _).2 h'
        exact ⟨hinj _ _ this.1, this.2⟩
      · rintro ⟨rfl, rfl⟩; rfl
    have key : ∀ a, (run L ops).quals.find? (qualified (L.typeName c) i) = some a ↔
        ((run L ops).byCls c).find? i = some a := by
      intro a
      rw [quals_iff, byCls_iff]
      show LastWith L (fun o : Inst δ => o.fullName L = qualified (L.typeName c) i) ops a ↔ _
      rw [hP]; rfl
    cases h1 : (run L ops).quals.find? (qualified (L.typeName c) i) with
    | some a => exact ((key a).1 h1).symm
    | none =>
      cases h2 : ((run L ops).byCls c).find? i with
      | none => rfl
      | some a => have := (key a).2 h2; rw [h1] at this; cases this
  have hc : ∀ i, create (run L ops) (L.typeName c) i = createCls (run L ops) c i := by
    intro i; simp only [create, createCls, hf]
  have hn : registeredNames (run L ops) (L.typeName c) = registeredNamesCls (run L ops) c := by
    have s1 := (C86_names L ops (L.typeName c)).1
    have s2 : (registeredNamesCls (run L ops) c).Pairwise (fun a b => strLt a b = true) :=
      OMap.sorted_keys (byCls_sorted L ops c)
    have hm : ∀ i, i ∈ registeredNames (run L ops) (L.typeName c) ↔ i ∈ registeredNamesCls (run L ops) c := by
      intro i
      rw [mem_registered (hcol c).1, OMap.mem_keys_iff, hf, registeredNamesCls, OMap.mem_keys_iff]
    have nd : ∀ {l : List Str}, l.Pairwise (fun a b => strLt a b = true) → l.Nodup := by
      intro l hl
      refine List.Pairwise.imp ?_ hl
      intro a b h e
      subst e; rw [strLt_irrefl] at h; cases h
    refine List.Perm.eq_of_pairwise (le := fun a b => strLt a b = true) ?_ s1 s2 ?_
    · intro a b _ _ h1 h2
      have := strLt_trans _ _ _ h1 h2
      rw [strLt_irrefl] at this; cases this
    · exact (List.perm_ext_iff_of_nodup (nd s1) (nd s2)).2 hm
  refine ⟨hc, hn, fun i => by rw [hasImplName, hasImplNameCls, hn], ?_⟩
  intro i n h
  rw [hc] at h ⊢
  rcases C45_create_def L ops c i with ⟨a, o, _, _, e1, e2, e3⟩ | ⟨_, e3⟩
  · rw [e3] at h ⊢
    simp only [Except.ok.injEq, Option.some.injEq] at h
    exact ⟨o, by simp [← h], e1, e2⟩
  · rw [e3] at h; cases h

/-- The library's own classes meet the hypotheses: class `c` is the `c`-th header (further classes get
    further names). -/
def vitalLib : Lib Nat where
  typeName c := (vitalTypeNames[c]?).getD (c!"x" ++ List.replicate c 'x')
  getCfg s _ := (s, .error .ub)
  setCfg s _ _ := (s, .ok ())
  checkCfg s _ _ := (s, .ok true)

example : (∀ c, vitalLib.typeName c ≠ [] ∧ ':' ∉ vitalLib.typeName c) := by
  intro c
  simp only [vitalLib]
  cases h : vitalTypeNames[c]? with
  | none => simp
  | some t => exact C87_type_names.2 t (List.mem_of_getElem? h)

example : ∀ c c', vitalLib.typeName c = vitalLib.typeName c' → c = c' := by
  have hx : ∀ t ∈ vitalTypeNames, t.head? ≠ some 'x' := by decide +kernel
  intro c c' h
  simp only [vitalLib] at h
  cases h1 : vitalTypeNames[c]? with
  | none =>
    cases h2 : vitalTypeNames[c']? with
    | none =>
      rw [h1, h2] at h
      have := congrArg List.length h
      simpa using this
    | some t =>
      rw [h1, h2] at h
      exact absurd (by rw [← show _ = t from h]; rfl) (hx t (List.mem_of_getElem? h2))
  | some t =>
    cases h2 : vitalTypeNames[c']? with
    | none =>
      rw [h1, h2] at h
      exact absurd (by rw [show t = _ from h]; rfl) (hx t (List.mem_of_getElem? h1))
    | some t' =>
      rw [h1, h2] at h
      have e : t = t' := h
      subst e
      have n := C87_type_names.1
      obtain ⟨l1, g1⟩ := List.getElem?_eq_some_iff.1 h1
      obtain ⟨l2, g2⟩ := List.getElem?_eq_some_iff.1 h2
      have n' := List.pairwise_iff_getElem.1 n
      rcases Nat.lt_trichotomy c c' with hlt | heq | hgt
      · exact absurd (g1.trans g2.symm) (n' c c' l1 l2 hlt)
      · exact heq
      · exact absurd (g2.trans g1.symm) (n' c' c l2 l1 hgt)

/-- Without the condition on ':' the registry confuses names: class "a" with implementation "b:c" and
    class "a:b" with implementation "c" share one entry, and `create("a", "b:c")` makes an object of the
    other class. -/
def clashLib : Lib Nat where
  typeName c := if c = 0 then c!"a" else c!"a:b"
  getCfg s _ := (s, .error .ub)
  setCfg s _ _ := (s, .ok ())
  checkCfg s _ _ := (s, .ok true)

theorem C87_colon_clash :
    let s := run clashLib [.new ⟨0, c!"b:c", [], 0⟩, .register (some 0), .new ⟨1, c!"c", [], 1⟩, .register (some 1)]
    (create s (c!"a") (c!"b:c")).2 = .ok (some 2) ∧ ((create s (c!"a") (c!"b:c")).1.objs[2]?).map (·.cls) = some 1 ∧
    (createCls s 0 (c!"b:c")).2 = .ok (some 2) ∧ ((createCls s 0 (c!"b:c")).1.objs[2]?).map (·.cls) = some 0 := by
  refine ⟨?_, ?_, ?_, ?_⟩ <;> decide +kernel

end Vital.Algo
