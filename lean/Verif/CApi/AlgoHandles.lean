import Verif.CApi.ConfigHandles
import Verif.Algo.Registry
/-
  Model of the C interface to algorithms (vital/bindings/c/helpers/algorithm.h, DEFINE_COMMON_ALGO_API, and
  vital/bindings/c/algorithm.cxx) on top of the C++ algorithms of Verif.Algo.Model and the shared-pointer cache of
  Verif.CApi.Utils.  Properties C129, C130.

  A handle is an address; `a` is the address of the object (or config block) that a call hands out.  `none` as an
  outcome means undefined behaviour inside the C++ library.  Exceptions end in STANDARD_CATCH; the effect on a
  passed error handle is C48 and is left out.  Between two calls the program may do anything else to the C++
  world (`outside`): register plugins, change config blocks and their handles (C124), use objects.
  NULL strings and a NULL `vital_algorithm_t**` are undefined in C++ and not modelled.
-/
namespace Vital.CApi.Alg
open Vital Vital.Config Vital.CApi Vital.Algo

variable {δ : Type}

abbrev Res := Cfg.Res

/-- The C++ world, CONFIG_BLOCK_SPTR_CACHE, ALGORITHM_SPTR_CACHE and ALGORITHM_type_SPTR_CACHE for each abstract
    class.  The tag of a shared pointer is the number of the block or object. -/
structure St (δ : Type) where
  alg : Algo.St δ
  cfgs : Cache
  gen : Cache
  typed : Nat → Cache

def St.init : St δ := ⟨Algo.St.init, CApi.empty, CApi.empty, fun _ => CApi.empty⟩

inductive Call (δ : Type) where
  | create (c : Nat) (impl : Str)
  | destroy (c : Nat) (p : Nat)
  | names (c : Nat)
  | getType (c : Nat) (name : Str) (p cb : Nat)
  /-- `p` is the value of `*algo` before the call, the result is its value afterwards -/
  | setType (c : Nat) (name : Str) (cb p : Nat)
  | checkType (c : Nat) (name : Str) (cb : Nat)
  | clone (c : Nat) (p : Nat)
  | typeName (p : Nat)
  | implName (p : Nat)
  | getImpl (p : Nat)
  | setImpl (p cb : Nat)
  | checkImpl (p cb : Nat)
  | outside (g : Algo.St δ) (cfgs : Cache)

/-- Replace the cache of one class. -/
def setTyped (f : Nat → Cache) (c : Nat) (x : Cache) : Nat → Cache := fun c' => if c' = c then x else f c'

-- models: vital/bindings/c/helpers/algorithm.h:95-97 (and 174-176, 216-218): store in both caches; an exception
-- of the first store skips the second; the flag says whether both succeeded
def storeBoth (s : St δ) (c : Nat) (sp : Sptr) : St δ × Bool :=
  match store s.gen sp with
  | (g, .error _) => ({ s with gen := g }, false)
  | (g, .ok ()) =>
    match store (s.typed c) sp with
    | (t, .error _) => ({ s with gen := g, typed := setTyped s.typed c t }, false)
    | (t, .ok ()) => ({ s with gen := g, typed := setTyped s.typed c t }, true)

-- models: vital/bindings/c/helpers/algorithm.h:110-111 (and 171-172): erase from both caches
def eraseBoth (s : St δ) (c p : Nat) : St δ × Bool :=
  match erase s.gen p with
  | (g, .error _) => ({ s with gen := g }, false)
  | (g, .ok ()) =>
    match erase (s.typed c) p with
    | (t, .error _) => ({ s with gen := g, typed := setTyped s.typed c t }, false)
    | (t, .ok ()) => ({ s with gen := g, typed := setTyped s.typed c t }, true)

-- models: vital/bindings/c/helpers/algorithm.h:86-102 (vital_algorithm_type_create)
def create (s : St δ) (a c : Nat) (impl : Str) : Option (St δ × Res) :=
  match createCls s.alg c impl with
  | (_, .error .ub) => none
  | (g, .error _) => some ({ s with alg := g }, .handle 0)
  | (g, .ok none) => some ({ s with alg := g }, .handle 0)
  | (g, .ok (some n)) =>
    match storeBoth { s with alg := g } c ⟨a, n⟩ with
    | (s', true) => some (s', .handle a)
    | (s', false) => some (s', .handle 0)

-- models: vital/bindings/c/helpers/algorithm.h:104-113 (vital_algorithm_type_destroy)
def destroy (s : St δ) (c p : Nat) : Option (St δ × Res) := some ((eraseBoth s c p).1, .void)

-- models: vital/bindings/c/helpers/algorithm.h:115-124 (vital_algorithm_type_registered_names)
def names (s : St δ) (c : Nat) : Option (St δ × Res) := some (s, .keys (makeStringList (registeredNamesCls s.alg c)))

/-- The object a class-specific call works on: none for NULL, an error for a handle not in the cache. -/
-- models: vital/bindings/c/helpers/algorithm.h:138-146, 160-164
def object (s : St δ) (c p : Nat) : Except Err (Option Nat) :=
  if p = 0 then .ok none
  else match get (s.typed c) p with
    | .error e => .error e
    | .ok sp => .ok (some sp.tag)

-- models: vital/bindings/c/helpers/algorithm.h:126-153 (vital_algorithm_type_get_type_config)
def getType (L : Lib δ) (s : St δ) (c : Nat) (name : Str) (p cb : Nat) : Option (St δ × Res) :=
  match object s c p with
  | .error _ => some (s, .void)
  | .ok o =>
    match get s.cfgs cb with
    | .error _ => some (s, .void)
    | .ok k =>
      match getNested L s.alg (L.typeName c) name k.tag o with
      | (_, .error .ub) => none
      | (g, _) => some ({ s with alg := g }, .void)

-- models: vital/bindings/c/helpers/algorithm.h:155-187 (vital_algorithm_type_set_type_config); a pointer is NULL,
-- the old address for the old object, or the address `a` of the new object
def setType (L : Lib δ) (s : St δ) (a c : Nat) (name : Str) (cb p : Nat) : Option (St δ × Res) :=
  match object s c p with
  | .error _ => some (s, .handle p)
  | .ok o =>
    match get s.cfgs cb with
    | .error _ => some (s, .handle p)
    | .ok k =>
      match setNestedCls L s.alg c name k.tag o with
      | (_, _, .error .ub) => none
      | (g, _, .error _) => some ({ s with alg := g }, .handle p)
      | (g, q, .ok ()) =>
        let sp : Sptr := match q with
          | none => ⟨0, 0⟩
          | some n => if o = some n then ⟨p, n⟩ else ⟨a, n⟩
        if p ≠ sp.ptr then
          let s1 : St δ × Bool := if p ≠ 0 then eraseBoth { s with alg := g } c p else ({ s with alg := g }, true)
          if s1.2 then
            match storeBoth s1.1 c sp with
            | (s2, true) => some (s2, .handle sp.ptr)
            | (s2, false) => some (s2, .handle p)
          else some (s1.1, .handle p)
        else some ({ s with alg := g }, .handle p)

-- models: vital/bindings/c/helpers/algorithm.h:189-203 (vital_algorithm_type_check_type_config)
def checkType (L : Lib δ) (s : St δ) (c : Nat) (name : Str) (cb : Nat) : Option (St δ × Res) :=
  match get s.cfgs cb with
  | .error _ => some (s, .bool false)
  | .ok k =>
    match checkNested L s.alg (L.typeName c) name k.tag with
    | (_, .error .ub) => none
    | (g, .error _) => some ({ s with alg := g }, .bool false)
    | (g, .ok b) => some ({ s with alg := g }, .bool b)

-- models: vital/bindings/c/helpers/algorithm.h:208-230 (vital_algorithm_type_clone); the cast of a clone of an
-- object from this class's cache cannot fail
def clone (s : St δ) (a c p : Nat) : Option (St δ × Res) :=
  if p = 0 then some (s, .handle 0)
  else
    match get (s.typed c) p with
    | .error _ => some (s, .handle 0)
    | .ok sp =>
      match cloneObj s.alg sp.tag with
      | (_, .error _) => none
      | (g, .ok n) =>
        match storeBoth { s with alg := g } c ⟨a, n⟩ with
        | (s', true) => some (s', .handle a)
        | (s', false) => some (s', .handle 0)

-- models: vital/bindings/c/algorithm.cxx:62-71 (vital_algorithm_type_name)
def typeName (L : Lib δ) (s : St δ) (p : Nat) : Option (St δ × Res) :=
  match get s.gen p with
  | .error _ => some (s, .str none)
  | .ok sp =>
    match s.alg.objs[sp.tag]? with
    | none => none
    | some o => some (s, Cfg.newString (L.typeName o.cls))

-- models: vital/bindings/c/algorithm.cxx:74-83 (vital_algorithm_impl_name)
def implName (s : St δ) (p : Nat) : Option (St δ × Res) :=
  match get s.gen p with
  | .error _ => some (s, .str none)
  | .ok sp =>
    match s.alg.objs[sp.tag]? with
    | none => none
    | some o => some (s, Cfg.newString o.impl)

-- models: vital/bindings/c/algorithm.cxx:86-99 (vital_algorithm_get_impl_configuration)
def getImpl (L : Lib δ) (s : St δ) (a p : Nat) : Option (St δ × Res) :=
  match get s.gen p with
  | .error _ => some (s, .handle 0)
  | .ok sp =>
    match L.getCfg s.alg sp.tag with
    | (_, .error .ub) => none
    | (g, .error _) => some ({ s with alg := g }, .handle 0)
    | (g, .ok k) =>
      match store s.cfgs ⟨a, k⟩ with
      | (x, .error _) => some ({ s with alg := g, cfgs := x }, .handle 0)
      | (x, .ok ()) => some ({ s with alg := g, cfgs := x }, .handle a)

-- models: vital/bindings/c/algorithm.cxx:102-114 (vital_algorithm_set_impl_configuration)
def setImpl (L : Lib δ) (s : St δ) (p cb : Nat) : Option (St δ × Res) :=
  match get s.gen p with
  | .error _ => some (s, .void)
  | .ok sp =>
    match get s.cfgs cb with
    | .error _ => some (s, .void)
    | .ok k =>
      match L.setCfg s.alg sp.tag k.tag with
      | (_, .error .ub) => none
      | (g, _) => some ({ s with alg := g }, .void)

-- models: vital/bindings/c/algorithm.cxx:117-131 (vital_algorithm_check_impl_configuration): the result of
-- check_configuration is dropped
def checkImpl (L : Lib δ) (s : St δ) (p cb : Nat) : Option (St δ × Res) :=
  match get s.gen p with
  | .error _ => some (s, .bool false)
  | .ok sp =>
    match get s.cfgs cb with
    | .error _ => some (s, .bool false)
    | .ok k =>
      match L.checkCfg s.alg sp.tag k.tag with
      | (_, .error .ub) => none
      | (g, _) => some ({ s with alg := g }, .bool false)

/-- Perform a call; `a` is the address of the object or block handed out, if there is one. -/
def exec (L : Lib δ) (s : St δ) (a : Nat) : Call δ → Option (St δ × Res)
  | .create c i => create s a c i
  | .destroy c p => destroy s c p
  | .names c => names s c
  | .getType c n p cb => getType L s c n p cb
  | .setType c n cb p => setType L s a c n cb p
  | .checkType c n cb => checkType L s c n cb
  | .clone c p => clone s a c p
  | .typeName p => typeName L s p
  | .implName p => implName s p
  | .getImpl p => getImpl L s a p
  | .setImpl p cb => setImpl L s p cb
  | .checkImpl p cb => checkImpl L s p cb
  | .outside g x => some ({ s with alg := g, cfgs := x }, .void)

def execAll (L : Lib δ) : St δ → List (Nat × Call δ) → Option (St δ × List Res)
  | s, [] => some (s, [])
  | s, (a, c) :: l =>
    match exec L s a c with
    | none => none
    | some (s', r) =>
      match execAll L s' l with
      | none => none
      | some (s'', rs) => some (s'', r :: rs)

/-! ### Specification: the C++ program that a C program stands for -/

/-- The C++ world, the config handles, and for each algorithm handle its class and object (`none`: dead or NULL). -/
structure Prog (δ : Type) where
  alg : Algo.St δ
  cfgs : Cache
  live : Nat → Option (Nat × Nat)

def Prog.init : Prog δ := ⟨Algo.St.init, CApi.empty, fun _ => none⟩

/-- The table with one entry replaced. -/
def put (f : Nat → Option (Nat × Nat)) (p : Nat) (x : Option (Nat × Nat)) : Nat → Option (Nat × Nat) :=
  fun q => if q = p then x else f q

/-- The object that handle `p` names when it is used with class `c`. -/
def Prog.named (t : Prog δ) (c p : Nat) : Option Nat :=
  match t.live p with
  | some (c', n) => if c' = c then some n else none
  | none => none

/-- The block a config handle names. -/
def Prog.block (t : Prog δ) (cb : Nat) : Option Nat :=
  match get t.cfgs cb with
  | .ok k => some k.tag
  | .error _ => none

/-- The outcome of a C++ call made by a C call: undefined, or the new world with the answer for success
    or for an exception. -/
def answer {T : Type} (t : Prog δ) (x : Algo.St δ × Except Exc T) (ok : T → Prog δ → Prog δ × Res) (bad : Res) : Option (Prog δ × Res) :=
  match x with
  | (_, .error .ub) => none
  | (g, .error _) => some ({ t with alg := g }, bad)
  | (g, .ok v) => some (ok v { t with alg := g })

/-- Handing out object `n` of class `c` at address `a`. -/
def hand (a c n : Nat) (t : Prog δ) : Prog δ × Res := ({ t with live := put t.live a (some (c, n)) }, .handle a)

/-- The effect each C call should have on the C++ program.  `checkImpl` here answers what check_configuration
    answers; see C130. -/
def spec (L : Lib δ) (t : Prog δ) (a : Nat) : Call δ → Option (Prog δ × Res)
  | .create c i => answer t (createCls t.alg c i)
      (fun r t' => match r with | none => (t', .handle 0) | some n => hand a c n t') (.handle 0)
  | .destroy c p => some ((if (t.named c p).isSome then { t with live := put t.live p none } else t), .void)
  | .names c => some (t, .keys (makeStringList (registeredNamesCls t.alg c)))
  | .getType c name p cb =>
    match (if p = 0 then some none else (t.named c p).map some), t.block cb with
    | some o, some k => answer t (getNested L t.alg (L.typeName c) name k o) (fun _ t' => (t', .void)) .void
    | _, _ => some (t, .void)
  | .setType c name cb p =>
    match (if p = 0 then some none else (t.named c p).map some), t.block cb with
    | some o, some k =>
      match setNestedCls L t.alg c name k o with
      | (g, q, r) => answer t (g, r)
          (fun _ t' => match q with
            | some n => if o = some n then (t', .handle p) else hand a c n { t' with live := put t'.live p none }
            | none => (t', .handle p)) (.handle p)
    | _, _ => some (t, .handle p)
  | .checkType c name cb =>
    match t.block cb with
    | some k => answer t (checkNested L t.alg (L.typeName c) name k) (fun b t' => (t', .bool b)) (.bool false)
    | none => some (t, .bool false)
  | .clone c p =>
    match t.named c p with
    | some n => answer t (cloneObj t.alg n) (hand a c) (.handle 0)
    | none => some (t, .handle 0)
  | .typeName p =>
    match t.live p with
    | some (c, _) => some (t, Cfg.newString (L.typeName c))
    | none => some (t, .str none)
  | .implName p =>
    match t.live p with
    | some (_, n) =>
      match t.alg.objs[n]? with
      | some o => some (t, Cfg.newString o.impl)
      | none => none
    | none => some (t, .str none)
  | .getImpl p =>
    match t.live p with
    | some (_, n) => answer t (L.getCfg t.alg n) (fun k t' => ({ t' with cfgs := (store t'.cfgs ⟨a, k⟩).1 }, .handle a)) (.handle 0)
    | none => some (t, .handle 0)
  | .setImpl p cb =>
    match t.live p, t.block cb with
    | some (_, n), some k => answer t (L.setCfg t.alg n k) (fun _ t' => (t', .void)) .void
    | _, _ => some (t, .void)
  | .checkImpl p cb =>
    match t.live p, t.block cb with
    | some (_, n), some k => answer t (L.checkCfg t.alg n k) (fun b t' => (t', .bool b)) (.bool false)
    | _, _ => some (t, .bool false)
  | .outside g x => some ({ t with alg := g, cfgs := x }, .void)

/-- Objects never change their class and never go away while something names them (addresses of objects
    are not reused in Verif.Algo.Model). -/
def Keeps (g g' : Algo.St δ) : Prop := ∀ (n : Nat) (o : Inst δ), g.objs[n]? = some o → ∃ o', g'.objs[n]? = some o' ∧ o'.cls = o.cls

/-- Every registered object is registered under its own type name. -/
def RegOk (L : Lib δ) (g : Algo.St δ) : Prop := ∀ (q : Str) (n : Nat), g.quals.find? q = some n →
  ∃ (o : Inst δ) (i : Str), g.objs[n]? = some o ∧ q = qualified (L.typeName o.cls) i

/-- Objects registered by class have that class. -/
def RegClsOk (g : Algo.St δ) : Prop := ∀ (c : Nat) (i : Str) (n : Nat), (g.byCls c).find? i = some n → ∃ o, g.objs[n]? = some o ∧ o.cls = c

/-- What a virtual function or other code of the program may do. -/
def Fair (L : Lib δ) (g g' : Algo.St δ) : Prop := Keeps g g' ∧ (RegOk L g → RegOk L g') ∧ (RegClsOk g → RegClsOk g')

structure LibOk (L : Lib δ) : Prop where
  inj : ∀ c c', L.typeName c = L.typeName c' → c = c'
  plain : ∀ c, L.typeName c ≠ [] ∧ ':' ∉ L.typeName c
  get : ∀ s n, Fair L s (L.getCfg s n).1
  set : ∀ s n k, Fair L s (L.setCfg s n k).1
  check : ∀ s n k, Fair L s (L.checkCfg s n k).1

/-- What the allocator and the program may do at each call: a new address is not NULL and not that of an object still
    named by a handle; a handle is not destroyed with the function of another class; other code is fair. -/
def Legal (L : Lib δ) (t : Prog δ) (a : Nat) : Call δ → Prop
  | .create _ _ => a ≠ 0 ∧ t.live a = none
  | .setType _ _ _ _ => a ≠ 0 ∧ t.live a = none
  | .clone _ _ => a ≠ 0 ∧ t.live a = none
  | .getImpl _ => a ≠ 0
  | .destroy c p => ∀ c' n, t.live p = some (c', n) → c' = c
  | .outside g _ => Fair L t.alg g
  | _ => True

def specAll (L : Lib δ) : Prog δ → List (Nat × Call δ) → Option (Prog δ × List Res)
  | t, [] => some (t, [])
  | t, (a, c) :: l =>
    match spec L t a c with
    | none => none
    | some (t', r) =>
      match specAll L t' l with
      | none => none
      | some (t'', rs) => some (t'', r :: rs)

def LegalRun (L : Lib δ) : Prog δ → List (Nat × Call δ) → Prop
  | _, [] => True
  | t, (a, c) :: l => Legal L t a c ∧ ∀ t' r, spec L t a c = some (t', r) → LegalRun L t' l

/-- Equality of answers up to the known defect of check_impl_configuration (C130). -/
def Same : Call δ → Res → Res → Prop
  | .checkImpl _ _, _, _ => True
  | _, r, r' => r = r'

/-! ### Proofs -/

/-- A cache holds exactly the shared pointers `f` gives, each once. -/
def Exact (c : Cache) (f : Nat → Option Nat) : Prop := ∀ p, c.cache.find? p = (f p).map (fun n => ⟨p, n⟩) ∧ c.count.find? p = (f p).map (fun _ => 1)

theorem exact_empty : Exact CApi.empty (fun _ => none) := fun p => by simp [CApi.empty, OMap.find?]

theorem exact_get {c : Cache} {f : Nat → Option Nat} (h : Exact c f) {p : Nat} (hp : p ≠ 0) :
    (∀ n, f p = some n → get c p = .ok ⟨p, n⟩) ∧ (f p = none → get c p = .error .noEntry) := by
  refine ⟨fun n hn => ?_, fun hn => ?_⟩ <;> simp [get, hp, (h p).1, hn]

theorem exact_store {c : Cache} {f : Nat → Option Nat} (h : Exact c f) {a n : Nat} (ha : a ≠ 0) (hf : f a = none) :
    ∃ c', store c ⟨a, n⟩ = (c', .ok ()) ∧ Exact c' (fun p => if p = a then some n else f p) := by
  refine ⟨⟨c.cache.insert a ⟨a, n⟩, c.count.insert a 1⟩, by simp [store, ha, OMap.contains, (h a).1, hf], fun p => ?_⟩
  simp only [OMap.find?_insert]
  by_cases e : p = a
  · subst e; simp
  · simp only [e, ↓reduceIte]; exact h p

theorem exact_erase {c : Cache} {f : Nat → Option Nat} (h : Exact c f) {p : Nat} (hp : p ≠ 0) :
    ∃ c', erase c p = (c', .ok ()) ∧ Exact c' (fun q => if q = p then none else f q) := by
  unfold erase
  rw [if_neg hp, (h p).1, (h p).2]
  cases hf : f p with
  | none =>
    refine ⟨c, rfl, fun q => ?_⟩
    by_cases e : q = p
    · subst e; have := h q; rw [hf] at this; simpa using this
    · simp only [e, ↓reduceIte]; exact h q
  | some n =>
    simp only [Option.map_some, Option.getD_some, dec, Nat.one_ne_zero, ↓reduceIte, Nat.sub_self]
    refine ⟨_, rfl, fun q => ?_⟩
    simp only [OMap.find?_erase, OMap.find?_insert]
    by_cases e : q = p
    · simp [e]
    · simp only [e, ↓reduceIte]; exact h q

/-- The model state represents the specified program. -/
structure Rel (L : Lib δ) (s : St δ) (t : Prog δ) : Prop where
  alg : s.alg = t.alg
  cfgs : s.cfgs = t.cfgs
  null : t.live 0 = none
  gen : Exact s.gen (fun p => (t.live p).map (·.2))
  typed : ∀ c, Exact (s.typed c) (fun p => t.named c p)
  cls : ∀ p c n, t.live p = some (c, n) → ∃ o, t.alg.objs[n]? = some o ∧ o.cls = c
  reg : RegOk L t.alg
  regc : RegClsOk t.alg

theorem rel_init (L : Lib δ) : Rel L (St.init : St δ) Prog.init :=
  ⟨rfl, rfl, rfl, exact_empty, fun _ => exact_empty, by simp [Prog.init], fun q n h => by simp [Prog.init, Algo.St.init, OMap.find?] at h,
    fun c i n h => by simp [Prog.init, Algo.St.init, OMap.find?] at h⟩

/-- Replacing the world by a fair successor. -/
theorem rel_world {L : Lib δ} {s : St δ} {t : Prog δ} (r : Rel L s t) {g : Algo.St δ} (x : Cache) (hf : Fair L t.alg g) :
    Rel L { s with alg := g, cfgs := x } { t with alg := g, cfgs := x } := by
  refine ⟨rfl, rfl, r.null, r.gen, r.typed, fun p c n h => ?_, hf.2.1 r.reg, hf.2.2 r.regc⟩
  obtain ⟨o, ho, hc⟩ := r.cls p c n h
  obtain ⟨o', ho', hc'⟩ := hf.1 n o ho
  exact ⟨o', ho', by rw [hc', hc]⟩

theorem rel_alg {L : Lib δ} {s : St δ} {t : Prog δ} (r : Rel L s t) {g : Algo.St δ} (hf : Fair L t.alg g) :
    Rel L { s with alg := g } { t with alg := g } := by
  have := rel_world r s.cfgs hf
  rw [r.cfgs] at this
  exact ⟨rfl, r.cfgs, this.null, this.gen, this.typed, this.cls, this.reg, this.regc⟩

theorem rel_hand {L : Lib δ} {s : St δ} {t : Prog δ} (r : Rel L s t) {a c n : Nat} (ha : a ≠ 0) (hl : t.live a = none)
    (ho : ∃ o, t.alg.objs[n]? = some o ∧ o.cls = c) :
    ∃ s', storeBoth s c ⟨a, n⟩ = (s', true) ∧ Rel L s' { t with live := put t.live a (some (c, n)) } := by
  obtain ⟨g', h1, h2⟩ := exact_store r.gen (n := n) ha (by simp [hl])
  obtain ⟨k', h3, h4⟩ := exact_store (r.typed c) (n := n) ha (by simp [Prog.named, hl])
  refine ⟨{ s with gen := g', typed := setTyped s.typed c k' }, by simp only [storeBoth, h1, h3], r.alg, r.cfgs, ?_, ?_, ?_, ?_, r.reg, r.regc⟩
  · simp only [put]; rw [if_neg (Ne.symm ha)]; exact r.null
  · intro p
    have := h2 p
    simp only [put]
    by_cases e : p = a
    · subst e; simpa using this
    · simpa [e] using this
  · intro c' p
    simp only [setTyped]
    by_cases ec : c' = c
    · subst ec
      have := h4 p
      simp only [↓reduceIte, Prog.named, put]
      by_cases e : p = a
      · subst e; simpa using this
      · simpa [e, Prog.named] using this
    · have := r.typed c' p
      simp only [ec, ↓reduceIte, Prog.named, put]
      by_cases e : p = a
      · subst e
        have e2 : t.named c' p = none := by simp [Prog.named, hl]
        simp only [e2] at this
        simpa [Ne.symm ec] using this
      · simpa [e, Prog.named] using this
  · intro p c' n' h
    simp only [put] at h
    by_cases e : p = a
    · simp only [e, ↓reduceIte, Option.some.injEq, Prod.mk.injEq] at h
      obtain ⟨rfl, rfl⟩ := h
      exact ho
    · simp only [e, ↓reduceIte] at h
      exact r.cls p c' n' h

theorem rel_drop {L : Lib δ} {s : St δ} {t : Prog δ} (r : Rel L s t) {c p : Nat} (hp : p ≠ 0)
    (hc : ∀ c' n, t.live p = some (c', n) → c' = c) :
    ∃ s', eraseBoth s c p = (s', true) ∧ Rel L s' { t with live := put t.live p none } := by
  obtain ⟨g', h1, h2⟩ := exact_erase r.gen hp
  obtain ⟨k', h3, h4⟩ := exact_erase (r.typed c) hp
  refine ⟨{ s with gen := g', typed := setTyped s.typed c k' }, by simp only [eraseBoth, h1, h3], r.alg, r.cfgs, ?_, ?_, ?_, ?_, r.reg, r.regc⟩
  · simp only [put]; rw [if_neg (Ne.symm hp)]; exact r.null
  · intro q
    have := h2 q
    simp only [put]
    by_cases e : q = p
    · subst e; simpa using this
    · simpa [e] using this
  · intro c' q
    simp only [setTyped]
    by_cases ec : c' = c
    · subst ec
      have := h4 q
      simp only [↓reduceIte, Prog.named, put]
      by_cases e : q = p
      · subst e; simpa using this
      · simpa [e, Prog.named] using this
    · have := r.typed c' q
      simp only [ec, ↓reduceIte, Prog.named, put]
      by_cases e : q = p
      · subst e
        have e2 : t.named c' q = none := by
          simp only [Prog.named]
          cases hl : t.live q with
          | none => rfl
          | some x => obtain ⟨c2, n2⟩ := x; have := hc c2 n2 hl; subst this; simp [Ne.symm ec]
        simp only [e2] at this
        simpa using this
      · simpa [e, Prog.named] using this
  · intro q c' n' h
    simp only [put] at h
    split at h
    · cases h
    · exact r.cls q c' n' h

/-! #### The world steps are fair -/

theorem fair_refl (L : Lib δ) (g : Algo.St δ) : Fair L g g := ⟨fun n o h => ⟨o, h, rfl⟩, id, id⟩

theorem fair_trans {L : Lib δ} {g1 g2 g3 : Algo.St δ} (a : Fair L g1 g2) (b : Fair L g2 g3) : Fair L g1 g3 := by
  refine ⟨fun n o h => ?_, fun h => b.2.1 (a.2.1 h), fun h => b.2.2 (a.2.2 h)⟩
  obtain ⟨o', h1, h2⟩ := a.1 n o h
  obtain ⟨o2, h3, h4⟩ := b.1 n o' h1
  exact ⟨o2, h3, by rw [h4, h2]⟩

theorem fair_cfg (L : Lib δ) (g : Algo.St δ) (h : Heap) : Fair L g { g with cfg := h } := ⟨fun n o h => ⟨o, h, rfl⟩, id, id⟩

theorem fair_push (L : Lib δ) (g : Algo.St δ) (o : Inst δ) : Fair L g { g with objs := g.objs ++ [o] } := by
  have K : ∀ (n : Nat) (x : Inst δ), g.objs[n]? = some x → (g.objs ++ [o])[n]? = some x := by
    intro n x h
    rw [List.getElem?_append_left (by exact (List.getElem?_eq_some_iff.1 h).1)]
    exact h
  refine ⟨fun n x h => ⟨x, K n x h, rfl⟩, fun h q n hq => ?_, fun h c i n hq => ?_⟩
  · obtain ⟨x, i, h1, h2⟩ := h q n hq; exact ⟨x, i, K n x h1, h2⟩
  · obtain ⟨x, h1, h2⟩ := h c i n hq; exact ⟨x, K n x h1, h2⟩

theorem clone_fair (L : Lib δ) (g : Algo.St δ) (n : Nat) : Fair L g (cloneObj g n).1 := by
  unfold cloneObj
  split
  · exact fair_refl L g
  · exact fair_push L g _

theorem clone_class {g g' : Algo.St δ} {n m : Nat} {o : Inst δ} (hn : g.objs[n]? = some o) (h : cloneObj g n = (g', .ok m)) :
    m = g.objs.length ∧ g'.objs[m]? = some o := by
  unfold cloneObj at h
  rw [hn] at h
  simp only [Prod.mk.injEq, Except.ok.injEq] at h
  obtain ⟨rfl, rfl⟩ := h
  exact ⟨rfl, by simp⟩

theorem createCls_fair (L : Lib δ) (g : Algo.St δ) (c : Nat) (i : Str) : Fair L g (createCls g c i).1 := by
  unfold createCls
  split
  · exact fair_refl L g
  · rename_i a _
    have := clone_fair L g a
    split <;> (rename_i h; rw [h] at this; exact this)

theorem createCls_class {g g' : Algo.St δ} {c n : Nat} {i : Str} (hr : RegClsOk g) (h : createCls g c i = (g', .ok (some n))) :
    ∃ o, g'.objs[n]? = some o ∧ o.cls = c := by
  unfold createCls at h
  split at h
  · cases h
  · rename_i a ha
    obtain ⟨o, ho, hc⟩ := hr c i a ha
    split at h
    · cases h
    · rename_i m hm
      simp only [Prod.mk.injEq, Except.ok.injEq, Option.some.injEq] at h
      obtain ⟨rfl, rfl⟩ := h
      exact ⟨o, (clone_class ho hm).2, hc⟩

theorem getNested_fair {L : Lib δ} (ok : LibOk L) (g : Algo.St δ) (t name : Str) (k : Nat) (o : Option Nat) :
    Fair L g (getNested L g t name k o).1 := by
  unfold getNested
  split
  · exact fair_refl L g
  · split
    · rename_i a
      split
      · exact fair_refl L g
      · split
        · exact fair_cfg L g _
        · split
          · exact fair_cfg L g _
          · rename_i h2 v _
            have f1 := fair_trans (fair_cfg L g h2) (ok.get { g with cfg := h2 } a)
            split
            · rename_i h; rw [h] at f1; exact f1
            · rename_i h; rw [h] at f1; exact fair_trans f1 (fair_cfg L _ _)
    · split
      · exact fair_refl L g
      · exact fair_refl L g
      · exact fair_cfg L g _

theorem checkNested_fair {L : Lib δ} (ok : LibOk L) (g : Algo.St δ) (t name : Str) (k : Nat) :
    Fair L g (checkNested L g t name k).1 := by
  unfold checkNested
  split
  · exact fair_refl L g
  · exact fair_refl L g
  · split
    · exact fair_refl L g
    · split
      · split
        · exact fair_cfg L g _
        · split
          · exact fair_cfg L g _
          · exact fair_trans (fair_cfg L g _) (ok.check _ _ _)
      · exact fair_refl L g

theorem setNested_fair {L : Lib δ} (ok : LibOk L) {g : Algo.St δ} (hr : RegOk L g) (c : Nat) (name : Str) (k : Nat) (o : Option Nat) :
    Fair L g (setNested L g (L.typeName c) name k o).1 ∧
    ((setNested L g (L.typeName c) name k o).2.2 = .ok () →
      (setNested L g (L.typeName c) name k o).2.1 = o ∨
      ∃ x, (setNested L g (L.typeName c) name k o).2.1 = some g.objs.length ∧
        (setNested L g (L.typeName c) name k o).1.objs[g.objs.length]? = some x ∧ x.cls = c) := by
  unfold setNested
  split
  · exact ⟨fair_refl L g, by simp⟩
  · exact ⟨fair_refl L g, by simp⟩
  · split
    · exact ⟨fair_refl L g, by simp⟩
    · rename_i iname _
      split
      · unfold Algo.create
        cases hq : g.quals.find? (qualified (L.typeName c) iname) with
        | none => exact ⟨fair_refl L g, by simp⟩
        | some a =>
          obtain ⟨x, i, hx, he⟩ := hr _ a hq
          have hcl : cloneObj g a = ({ g with objs := g.objs ++ [x] }, .ok g.objs.length) := by simp [cloneObj, hx]
          simp only [hcl]
          have hxc : x.cls = c := by
            have he' : L.typeName c ++ ':' :: iname = L.typeName x.cls ++ ':' :: i := by
              simpa [qualified] using he
            exact (ok.inj _ _ (split_colon (ok.plain c).2 (ok.plain x.cls).2 he').1).symm
          split
          · exact ⟨fair_trans (fair_push L g x) (fair_cfg L _ _), by simp⟩
          · rename_i h2 v hv
            have f := ok.set { g with objs := g.objs ++ [x], cfg := h2 } g.objs.length v
            have f2 := fair_trans (fair_trans (fair_push L g x) (fair_cfg L _ h2)) f
            refine ⟨f2, fun _ => .inr ?_⟩
            obtain ⟨x', h1, h2'⟩ := f.1 g.objs.length x (by simp)
            exact ⟨x', rfl, h1, by rw [h2', hxc]⟩
      · exact ⟨fair_refl L g, by simp⟩

theorem setNestedCls_fair {L : Lib δ} (ok : LibOk L) {g : Algo.St δ} (hr : RegOk L g) (c : Nat) (name : Str) (k : Nat) (o : Option Nat)
    (ho : ∀ n, o = some n → ∃ x, g.objs[n]? = some x ∧ x.cls = c) :
    Fair L g (setNestedCls L g c name k o).1 ∧
    ((setNestedCls L g c name k o).2.2 = .ok () →
      (setNestedCls L g c name k o).2.1 = o ∨
      ∃ x, (setNestedCls L g c name k o).2.1 = some g.objs.length ∧ o ≠ some g.objs.length ∧
        (setNestedCls L g c name k o).1.objs[g.objs.length]? = some x ∧ x.cls = c) := by
  obtain ⟨h1, h2⟩ := setNested_fair ok hr c name k o
  unfold setNestedCls
  split
  · rename_i h; rw [h] at h1; exact ⟨h1, by simp⟩
  · rename_i g' p h
    rw [h] at h1 h2
    refine ⟨h1, fun _ => ?_⟩
    rcases h2 rfl with e | ⟨x, e, hx, hc⟩
    · left
      simp only at e
      subst e
      cases p with
      | none => rfl
      | some n =>
        obtain ⟨x, hx, hc⟩ := ho n rfl
        obtain ⟨x', hx', hc'⟩ := h1.1 n x hx
        simp only at hx'
        simp [hx', hc', hc]
    · right
      simp only at e hx
      subst e
      refine ⟨x, by simp [hx, hc], ?_, hx, hc⟩
      intro e2
      obtain ⟨y, hy, _⟩ := ho _ e2
      have := (List.getElem?_eq_some_iff.1 hy).1
      omega

end Vital.CApi.Alg
