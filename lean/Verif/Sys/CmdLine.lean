import Verif.Basic.Decimal
import Mathlib.Data.List.TakeWhile
/-
  Model of vital/kwiversys/CommandLineArguments.cxx (registration and Parse); properties C151 (parsing), C152 (last argument, remaining arguments),
  C153 (unknown arguments, values of flags).

  The functions the caller registers are parameters: they are recorded, and `ans` says whether they return nonzero (given the calls before). A `double` is represented by the text given to
  `strtod`. Argument strings the caller passes to AddArgument/AddCallback stay alive (the object keeps the pointers). Variables of type `char*` hold
  null or memory from `new[]`, as the code assumes.
-/
namespace Vital.CmdLine
open Vital

-- models: vital/kwiversys/CommandLineArguments.hxx.in:79-85 (ArgumentTypeEnum)
inductive Kind where
  | flag | concat | space | equal | multi
  deriving DecidableEq

-- models: vital/kwiversys/CommandLineArguments.hxx.in:91-104 (VariableTypeEnum; `char*` and std::string alike)
inductive Base where
  | int | bool | double | string
  deriving DecidableEq

inductive Scalar where
  | int (n : Int)
  | bool (b : Bool)
  | double (text : Str)
  | string (s : Str)
  deriving DecidableEq

-- models: vital/kwiversys/CommandLineArguments.cxx:54-63 (Callback and CallData, or Variable and VariableType)
inductive Act where
  | call (id : Nat)
  | var (address : Nat) (base : Base) (vector : Bool)
  | nothing
  deriving DecidableEq

structure Opt where
  kind : Kind
  act : Act
  help : Str
  deriving DecidableEq

/-- A call of a registered function; no value is the null pointer. -/
inductive Call where
  | option (id : Nat) (name : Str) (value : Option Str)
  | unknown (id : Nat) (arg : Str)
  deriving DecidableEq

/-- The caller's side: the contents of variables (one value, or several in a vector) and the calls so far. -/
structure World where
  vars : Nat → List Scalar
  calls : List Call

-- models: vital/kwiversys/CommandLineArguments.cxx:672-686, 740-751
def trueWords : List Str := [c!"1", c!"ON", c!"on", c!"On", c!"TRUE", c!"true", c!"True", c!"yes", c!"Yes", c!"YES"]

/-- `static_cast<int>(strtol(s, &res, 10))`, long of 64 bits. -/
-- models: vital/kwiversys/CommandLineArguments.cxx:689-698, 754-764
def toInt (s : Str) : Int :=
  let (neg, t) := splitSign (ltrim s)
  let v : Int := if neg then -(digitsVal (t.takeWhile isDigit) : Int) else (digitsVal (t.takeWhile isDigit) : Int)
  let v := if v < -2 ^ 63 then -2 ^ 63 else if 2 ^ 63 - 1 < v then 2 ^ 63 - 1 else v
  (v + 2 ^ 31) % 2 ^ 32 - 2 ^ 31

def convert (b : Base) (s : Str) : Scalar :=
  match b with
  | .int => .int (toInt s)
  | .bool => .bool (decide (s ∈ trueWords))
  | .double => .double s
  | .string => .string s

-- models: vital/kwiversys/CommandLineArguments.cxx:672-793 (the PopulateVariable functions for one type), 796-856 (PopulateVariable)
def populate (ans : List Call → Call → Bool) (name : Str) (o : Opt) (value : Option Str) (w : World) : World × Bool :=
  match o.act with
  | .call id => ({ w with calls := w.calls ++ [.option id name value] }, ans w.calls (.option id name value))
  | .var a b vec =>
    let v := convert b (value.getD (c!"1"))
    ({ w with vars := fun x => if x = a then (if vec then w.vars a ++ [v] else [v]) else w.vars x }, true)
  | .nothing => (w, true)

-- models: vital/kwiversys/CommandLineArguments.cxx:75-102 (CommandLineArgumentsInternal), CommandLineArguments.hxx.in:265
structure Obj where
  argv0 : Str
  argv : List Str
  table : OMap Str Opt
  unknownCallback : Option Nat
  last : Nat
  unused : List Str
  store : Bool

-- models: vital/kwiversys/CommandLineArguments.cxx:70-75, 104-111
def Obj.new : Obj := ⟨[], [], [], none, 0, [], false⟩

-- models: vital/kwiversys/CommandLineArguments.cxx:119-151 (Initialize, ProcessArgument)
def Obj.initialize (x : Obj) (argv0 : Str) (args : List Str) : Obj := { x with argv0 := argv0, argv := args, last := 0 }

-- models: vital/kwiversys/CommandLineArguments.cxx:371-403 (AddCallback, AddArgument); the help text is generated elsewhere
def Obj.add (x : Obj) (name : Str) (o : Opt) : Obj := { x with table := x.table.insert name o }

def applies (arg name : Str) (o : Opt) : Bool :=
  match o.kind with
  | .flag | .space => arg = name
  | _ => startsWith arg name

-- models: vital/kwiversys/CommandLineArguments.cxx:154-183 (GetMatchedArguments)
def matched (t : OMap Str Opt) (arg : Str) : List Str := (t.filter fun e => applies arg e.1 e.2).map Prod.fst

-- models: vital/kwiversys/CommandLineArguments.cxx:203-214
def longest (ms : List Str) : Str :=
  (ms.foldl (fun (b : Str × Nat) m => if m.length > b.2 then (m, m.length) else b) (ms.headD [], 0)).1

/-- `size_type` minus one. -/
def pred64 (n : Nat) : Nat := if n = 0 then 2 ^ 64 - 1 else n - 1

/-- `size_type` plus one. -/
def succ64 (n : Nat) : Nat := if n = 2 ^ 64 - 1 then 0 else n + 1

/-- The values of an argument of several; the rest, unless a callback fails. -/
-- models: vital/kwiversys/CommandLineArguments.cxx:264-280
def values (ans : List Call → Call → Bool) (t : OMap Str Opt) (name : Str) (o : Opt) : List Str → World → World × Option (List Str)
  | [], w => (w, some [])
  | m :: rest, w =>
    if matched t m ≠ [] then (w, some (m :: rest))
    else
      match populate ans name o (some m) w with
      | (w, false) => (w, none)
      | (w, true) => values ans t name o rest w

structure Loop where
  w : World
  last : Nat
  unused : List Str

/-- What one turn of the loop leads to: the loop goes on (arguments used, rest, state), or Parse returns. -/
inductive Next where
  | go (used : Nat) (rest : List Str) (w : World) (unused : List Str)
  | fail (w : World)
  | stop (w : World)

/-- PopulateVariable in the loop. -/
def setOne (ans : List Call → Call → Bool) (name : Str) (o : Opt) (value : Option Str) (w : World) (used : Nat) (rest : List Str) (unused : List Str) : Next :=
  match populate ans name o value w with
  | (w, false) => .fail w
  | (w, true) => .go used rest w unused

-- models: vital/kwiversys/CommandLineArguments.cxx:215-297 (the switch)
def known (ans : List Call → Call → Bool) (t : OMap Str Opt) (arg : Str) (rest : List Str) (w : World) (unused : List Str) (sarg : Str) (o : Opt) : Next :=
  match o.kind with
  | .flag => setOne ans sarg o none w 1 rest unused
  | .space =>
    match rest with
    | [] => .fail w
    | v :: rest => setOne ans sarg o (some v) w 2 rest unused
  | .equal =>
    if arg.length = sarg.length ∨ arg[sarg.length]? ≠ some '=' then .fail w
    else setOne ans sarg o (some (arg.drop (sarg.length + 1))) w 1 rest unused
  | .concat => setOne ans sarg o (some (arg.drop sarg.length)) w 1 rest unused
  | .multi =>
    match values ans t sarg o rest w with
    | (w, none) => .fail w
    | (w, some rest') => .go (1 + (rest.length - rest'.length)) rest' w unused

-- models: vital/kwiversys/CommandLineArguments.cxx:195-322 (the body of the loop)
def turnOf (ans : List Call → Call → Bool) (x : Obj) (arg : Str) (rest : List Str) (w : World) (unused : List Str) : Next :=
  if matched x.table arg ≠ [] then
    match x.table.find? (longest (matched x.table arg)) with
    | none => .fail w
    | some o => known ans x.table arg rest w unused (longest (matched x.table arg)) o
  else
    match x.unknownCallback with
    | some id =>
      let w' := { w with calls := w.calls ++ [.unknown id arg] }
      if ans w.calls (.unknown id arg) then .stop w' else .fail w'
    | none => if x.store then .go 1 rest w (unused ++ [arg]) else .fail w

/-- The loop from index `cc` on; the flag says whether Parse returns 1. -/
-- models: vital/kwiversys/CommandLineArguments.cxx:186-324 (Parse)
def parseLoop (ans : List Call → Call → Bool) (x : Obj) : Nat → Nat → List Str → Loop → Loop × Bool
  | 0, _, _, s => (s, true)
  | n + 1, cc, args, s =>
    match args with
    | [] => (s, true)
    | arg :: rest =>
      match turnOf ans x arg rest s.w s.unused with
      | .go used rest w unused => parseLoop ans x n (cc + used) rest ⟨w, cc, unused⟩
      | .fail w => (⟨w, pred64 cc, s.unused⟩, false)
      | .stop w => (⟨w, cc, s.unused⟩, true)

-- models: vital/kwiversys/CommandLineArguments.cxx:186-324 (Parse)
def parse (ans : List Call → Call → Bool) (x : Obj) (w : World) : Obj × World × Bool :=
  let r := parseLoop ans x x.argv.length 0 x.argv ⟨w, x.last, if x.store then [] else x.unused⟩
  ({ x with last := r.1.last, unused := r.1.unused }, r.1.w, r.2)

-- models: vital/kwiversys/CommandLineArguments.cxx:511-514 (GetLastArgument)
def Obj.getLastArgument (x : Obj) : Nat := succ64 x.last % 2 ^ 32

/-- The vector of strings; the second part is the number of places allocated. -/
-- models: vital/kwiversys/CommandLineArguments.cxx:327-348 (GetRemainingArguments)
def Obj.getRemainingArguments (x : Obj) : List Str × Nat :=
  (x.argv0 :: x.argv.drop (succ64 x.last), (x.argv.length + (2 ^ 64 - x.last) + 1) % 2 ^ 64)

-- models: vital/kwiversys/CommandLineArguments.cxx:351-374 (GetUnusedArguments)
def Obj.getUnusedArguments (x : Obj) : List Str := x.argv0 :: x.unused

/-! ### Specification -/

/-- The option is named by the argument: a flag and an option with the value in the next argument must be the whole argument, the others its beginning. -/
def Names (t : OMap Str Opt) (arg name : Str) (o : Opt) : Prop :=
  t.find? name = some o ∧ (o.kind = .flag ∨ o.kind = .space → arg = name) ∧ name <+: arg

/-- The longest option named. -/
def Chosen (t : OMap Str Opt) (arg name : Str) (o : Opt) : Prop :=
  Names t arg name o ∧ ∀ name' o', Names t arg name' o' → name'.length ≤ name.length

def Known (t : OMap Str Opt) (arg : Str) : Prop := ∃ name o, Names t arg name o

structure Setting where
  name : Str
  o : Opt
  value : Option Str

/-- The arguments of one option (or one unknown argument, if these are stored), what it sets, and the unknown argument. -/
inductive Group (t : OMap Str Opt) (store : Bool) : List Str → List Setting → List Str → Prop where
  | flag {arg name o} : Chosen t arg name o → o.kind = .flag → Group t store [arg] [⟨name, o, none⟩] []
  | space {arg name o v} : Chosen t arg name o → o.kind = .space → Group t store [arg, v] [⟨name, o, some v⟩] []
  | equal {arg name o v} : Chosen t arg name o → o.kind = .equal → arg = name ++ '=' :: v → Group t store [arg] [⟨name, o, some v⟩] []
  | concat {arg name o v} : Chosen t arg name o → o.kind = .concat → arg = name ++ v → Group t store [arg] [⟨name, o, some v⟩] []
  | multi {arg name o vs} : Chosen t arg name o → o.kind = .multi → (∀ v ∈ vs, ¬ Known t v) → Group t store (arg :: vs) (vs.map fun v => ⟨name, o, some v⟩) []
  | unknown {arg} : ¬ Known t arg → store = true → Group t store [arg] [] [arg]

def IsMulti (t : OMap Str Opt) (g : List Str) : Prop := ∃ arg name o, g.head? = some arg ∧ Chosen t arg name o ∧ o.kind = .multi

/-- A list of arguments read as groups; an option with several values takes all that follow up to a known one. -/
inductive Reads (t : OMap Str Opt) (store : Bool) : List Str → List Setting → List Str → Prop where
  | nil : Reads t store [] [] []
  | cons {g es us args es' us'} : Group t store g es us → (IsMulti t g → ∀ a, args.head? = some a → Known t a) → Reads t store args es' us' →
      Reads t store (g ++ args) (es ++ es') (us ++ us')

/-- Make settings one after the other until a function fails. -/
def settle (ans : List Call → Call → Bool) : List Setting → World → World × Bool
  | [], w => (w, true)
  | e :: es, w =>
    match populate ans e.name e.o e.value w with
    | (w, false) => (w, false)
    | (w, true) => settle ans es w

/-! ### Matching -/

theorem applies_iff (arg name : Str) (o : Opt) : applies arg name o = true ↔ (o.kind = .flag ∨ o.kind = .space → arg = name) ∧ name <+: arg := by
  unfold applies
  have e : (name <+: arg) ↔ startsWith arg name = true := by
    rw [startsWith_iff]
    exact ⟨fun ⟨x, h⟩ => ⟨x, h.symm⟩, fun ⟨x, h⟩ => ⟨x, h.symm⟩⟩
  rw [e]
  have r : arg = name → startsWith arg name = true := by rintro rfl; rw [startsWith_iff]; exact ⟨[], by simp⟩
  cases o.kind <;> simp <;> exact r

theorem find?_mem {m : OMap Str Opt} (h : m.Sorted) {k : Str} {v : Opt} : m.find? k = some v ↔ (k, v) ∈ m := by
  induction m with
  | nil => simp [OMap.find?]
  | cons e m ih =>
    obtain ⟨k', v'⟩ := e
    have hs := List.pairwise_cons.1 h
    simp only [OMap.find?]
    by_cases hk : k' = k
    · subst hk
      simp only [↓reduceIte, Option.some.injEq, List.mem_cons, Prod.mk.injEq, true_and]
      constructor
      · intro e; exact .inl e.symm
      · rintro (e | e)
        · exact e.symm
        · have := hs.1 _ e
          rw [KeyOrd.irrefl] at this; cases this
    · simp only [hk, ↓reduceIte, List.mem_cons, Prod.mk.injEq, Ne.symm hk, false_and, false_or]
      exact ih hs.2

theorem matched_iff {t : OMap Str Opt} (h : t.Sorted) (arg name : Str) : name ∈ matched t arg ↔ ∃ o, Names t arg name o := by
  simp only [matched, List.mem_map, List.mem_filter, applies_iff, Names, find?_mem h]
  constructor
  · rintro ⟨⟨n, o⟩, ⟨h1, h2⟩, rfl⟩; exact ⟨o, h1, h2⟩
  · rintro ⟨o, h1, h2⟩; exact ⟨(name, o), ⟨h1, h2⟩, rfl⟩

theorem known_iff {t : OMap Str Opt} (h : t.Sorted) (arg : Str) : matched t arg ≠ [] ↔ Known t arg := by
  constructor
  · intro hm
    obtain ⟨n, hn⟩ := List.exists_mem_of_ne_nil _ hm
    obtain ⟨o, ho⟩ := (matched_iff h arg n).1 hn
    exact ⟨n, o, ho⟩
  · rintro ⟨n, o, ho⟩ e
    have := (matched_iff h arg n).2 ⟨o, ho⟩
    rw [e] at this; cases this

theorem longest_spec : ∀ (ms : List Str) (b : Str × Nat), b.2 ≤ b.1.length →
    (let r := ms.foldl (fun (b : Str × Nat) m => if m.length > b.2 then (m, m.length) else b) b
     (r.1 = b.1 ∨ r.1 ∈ ms) ∧ b.2 ≤ r.2 ∧ r.2 ≤ r.1.length ∧ ∀ m ∈ ms, m.length ≤ r.2) := by
  intro ms
  induction ms with
  | nil => intro b hb; simp [hb]
  | cons m ms ih =>
    intro b hb
    simp only [List.foldl_cons]
    by_cases h : m.length > b.2
    · rw [if_pos h]
      obtain ⟨h1, h2, h3, h4⟩ := ih (m, m.length) (Nat.le_refl _)
      refine ⟨.inr ?_, by simp only at h2; omega, h3, ?_⟩
      · rcases h1 with h1 | h1
        · rw [h1]; exact List.mem_cons_self
        · exact List.mem_cons_of_mem _ h1
      · intro x hx
        rcases List.mem_cons.1 hx with rfl | hx
        · exact h2
        · exact h4 x hx
    · rw [if_neg h]
      obtain ⟨h1, h2, h3, h4⟩ := ih b hb
      refine ⟨h1.imp_right (List.mem_cons_of_mem _), h2, h3, ?_⟩
      intro x hx
      rcases List.mem_cons.1 hx with rfl | hx
      · omega
      · exact h4 x hx

theorem longest_mem {ms : List Str} (h : ms ≠ []) : longest ms ∈ ms ∧ ∀ m ∈ ms, m.length ≤ (longest ms).length := by
  obtain ⟨a, l, rfl⟩ := List.exists_cons_of_ne_nil h
  obtain ⟨h1, -, h3, h4⟩ := longest_spec (a :: l) ((a :: l).headD [], 0) (Nat.zero_le _)
  refine ⟨?_, fun m hm => Nat.le_trans (h4 m hm) h3⟩
  rcases h1 with h1 | h1
  · unfold longest; rw [h1]; exact List.mem_cons_self
  · exact h1

theorem chosen_longest {t : OMap Str Opt} (h : t.Sorted) {arg : Str} (hm : matched t arg ≠ []) :
    ∃ o, t.find? (longest (matched t arg)) = some o ∧ Chosen t arg (longest (matched t arg)) o := by
  obtain ⟨h1, h2⟩ := longest_mem hm
  obtain ⟨o, ho⟩ := (matched_iff h _ _).1 h1
  exact ⟨o, ho.1, ho, fun n' o' hn => h2 n' ((matched_iff h _ _).2 ⟨o', hn⟩)⟩

/-- There is only one longest option. -/
theorem Chosen.unique {t : OMap Str Opt} {arg n n' : Str} {o o' : Opt} (h : Chosen t arg n o) (h' : Chosen t arg n' o') : n = n' ∧ o = o' := by
  have e : n = n' := List.IsPrefix.eq_of_length
    (List.prefix_of_prefix_length_le h.1.2.2 h'.1.2.2 (h'.2 n o h.1)) (Nat.le_antisymm (h'.2 n o h.1) (h.2 n' o' h'.1))
  subst e
  exact ⟨rfl, Option.some.inj (h.1.1.symm.trans h'.1.1)⟩

/-! ### The loop -/

theorem settle_append (ans : List Call → Call → Bool) (a b : List Setting) (w : World) :
    settle ans (a ++ b) w = match settle ans a w with | (w, false) => (w, false) | (w, true) => settle ans b w := by
  induction a generalizing w with
  | nil => rfl
  | cons e a ih =>
    simp only [List.cons_append, settle]
    cases h : populate ans e.name e.o e.value w with
    | mk w' b' => cases b' <;> simp [ih]

theorem values_spec (t : OMap Str Opt) (ans : List Call → Call → Bool) (name : Str) (o : Opt) : ∀ (rest : List Str) (w : World),
    values ans t name o rest w =
      match settle ans ((rest.takeWhile fun v => matched t v = []).map fun v => ⟨name, o, some v⟩) w with
      | (w', true) => (w', some (rest.dropWhile fun v => matched t v = []))
      | (w', false) => (w', none) := by
  intro rest
  induction rest with
  | nil => intro w; rfl
  | cons m rest ih =>
    intro w
    by_cases hk : matched t m = []
    · simp only [values, hk, ne_eq, not_true_eq_false, ↓reduceIte, List.takeWhile_cons, decide_true, List.map_cons, settle, List.dropWhile_cons]
      cases populate ans name o (some m) w with
      | mk w1 b => cases b <;> simp [ih]
    · simp [values, hk, settle]

/-- Unknown arguments are stored. -/
def Obj.keeps (x : Obj) : Bool := x.store && x.unknownCallback.isNone

/-- A group at the beginning, as long as it can be. -/
structure First (t : OMap Str Opt) (store : Bool) (args g rest : List Str) (es : List Setting) (us : List Str) : Prop where
  text : args = g ++ rest
  group : Group t store g es us
  all : IsMulti t g → ∀ a, rest.head? = some a → Known t a

/-- One turn of the loop: a group is read, or the loop ends. -/
inductive Turn (ans : List Call → Call → Bool) (x : Obj) (n cc : Nat) (args : List Str) (s : Loop) : Loop × Bool → Prop where
  | group {g rest es us w r} : First x.table x.keeps args g rest es us → settle ans es s.w = (w, true) →
      r = parseLoop ans x n (cc + g.length) rest ⟨w, cc, s.unused ++ us⟩ → Turn ans x n cc args s r
  /-- A function failed. -/
  | fail {g rest es us w} : First x.table x.keeps args g rest es us → settle ans es s.w = (w, false) → Turn ans x n cc args s (⟨w, pred64 cc, s.unused⟩, false)
  /-- The option has no value. -/
  | noValue {bad rest name o} : args = bad :: rest → Chosen x.table bad name o → (o.kind = .space ∧ rest = []) ∨ (o.kind = .equal ∧ ∀ v, bad ≠ name ++ '=' :: v) →
      Turn ans x n cc args s (⟨s.w, pred64 cc, s.unused⟩, false)
  | unknownFail {bad rest} : args = bad :: rest → ¬ Known x.table bad → x.unknownCallback = none → x.store = false → Turn ans x n cc args s (⟨s.w, pred64 cc, s.unused⟩, false)
  | unknownCall {bad rest id b} : args = bad :: rest → ¬ Known x.table bad → x.unknownCallback = some id → b = ans s.w.calls (.unknown id bad) →
      Turn ans x n cc args s (⟨{ s.w with calls := s.w.calls ++ [.unknown id bad] }, if b then cc else pred64 cc, s.unused⟩, b)

/-- What `Turn` says of the parts of the loop. -/
theorem turn_of {ans : List Call → Call → Bool} {x : Obj} {n cc : Nat} {arg : Str} {rest : List Str} {s : Loop}
    (h : ∀ r, (r = match turnOf ans x arg rest s.w s.unused with
      | .go used rest w unused => parseLoop ans x n (cc + used) rest ⟨w, cc, unused⟩
      | .fail w => (⟨w, pred64 cc, s.unused⟩, false)
      | .stop w => (⟨w, cc, s.unused⟩, true)) → Turn ans x n cc (arg :: rest) s r) :
    Turn ans x n cc (arg :: rest) s (parseLoop ans x (n + 1) cc (arg :: rest) s) := h _ (by rw [parseLoop])

theorem turn (ans : List Call → Call → Bool) (x : Obj) (ht : x.table.Sorted) (n cc : Nat) (arg : Str) (rest : List Str) (s : Loop) :
    Turn ans x n cc (arg :: rest) s (parseLoop ans x (n + 1) cc (arg :: rest) s) := by
  apply turn_of
  intro r hr
  unfold turnOf at hr
  by_cases hm : matched x.table arg = []
  · rw [if_neg (by simp [hm])] at hr
    have hk : ¬ Known x.table arg := by rw [← known_iff ht]; simp [hm]
    cases hu : x.unknownCallback with
    | none =>
      rw [hu] at hr
      cases hst : x.store with
      | true =>
        rw [hst] at hr
        exact .group (g := [arg]) (us := [arg]) (es := []) ⟨rfl, .unknown hk (by simp [Obj.keeps, hu, hst]), (by
          rintro ⟨a, nm, o, h1, h2, -⟩
          simp only [List.head?_cons, Option.some.injEq] at h1
          subst h1
          exact absurd ⟨nm, o, h2.1⟩ hk)⟩ rfl hr
      | false =>
        rw [hst] at hr
        rw [hr]
        exact .unknownFail rfl hk hu hst
    | some id =>
      rw [hu] at hr
      have := Turn.unknownCall (ans := ans) (n := n) (cc := cc) (s := s) (rest := rest) rfl hk hu rfl
      cases ha : ans s.w.calls (.unknown id arg) with
      | true => simp only [ha, ↓reduceIte] at this hr; rw [hr]; exact this
      | false => simp only [ha, Bool.false_eq_true, ↓reduceIte] at this hr; rw [hr]; exact this
  · rw [if_pos hm] at hr
    obtain ⟨o, hf, hc⟩ := chosen_longest ht hm
    generalize longest (matched x.table arg) = name at hf hc hr
    rw [hf] at hr
    simp only at hr
    have notMulti : o.kind ≠ .multi → ∀ g, g.head? = some arg → ¬ IsMulti x.table g := by
      rintro hne g hg ⟨a, nm, o', h1, h2, h3⟩
      rw [hg] at h1; cases h1
      rw [(hc.unique h2).2] at hne
      exact hne h3
    -- one setting
    have one : ∀ (g rest' : List Str) (v : Option Str), arg :: rest = g ++ rest' → g.head? = some arg → o.kind ≠ .multi → Group x.table x.keeps g [⟨name, o, v⟩] [] →
        (r = match setOne ans name o v s.w g.length rest' s.unused with
          | .go used rest w unused => parseLoop ans x n (cc + used) rest ⟨w, cc, unused⟩
          | .fail w => (⟨w, pred64 cc, s.unused⟩, false)
          | .stop w => (⟨w, cc, s.unused⟩, true)) → Turn ans x n cc (arg :: rest) s r := by
      intro g rest' v he hh hne hg hr
      have hfirst : First x.table x.keeps (arg :: rest) g rest' [⟨name, o, v⟩] [] := ⟨he, hg, fun h => absurd h (notMulti hne _ hh)⟩
      unfold setOne at hr
      cases hp : populate ans name o v s.w with
      | mk w b =>
        rw [hp] at hr
        cases b with
        | false => rw [hr]; exact .fail hfirst (by simp [settle, hp])
        | true => exact .group hfirst (w := w) (by simp [settle, hp]) (by rw [hr]; simp)
    unfold known at hr
    cases hkind : o.kind with
    | flag => rw [hkind] at hr; exact one [arg] rest none rfl rfl (by simp [hkind]) (.flag hc hkind) hr
    | space =>
      rw [hkind] at hr
      cases rest with
      | nil => rw [hr]; exact .noValue rfl hc (.inl ⟨hkind, rfl⟩)
      | cons v rest => exact one [arg, v] rest (some v) rfl rfl (by simp [hkind]) (.space hc hkind) hr
    | equal =>
      rw [hkind] at hr
      simp only at hr
      obtain ⟨v0, hv0⟩ := hc.1.2.2
      by_cases he : arg.length = name.length ∨ arg[name.length]? ≠ some '='
      · rw [if_pos he] at hr
        rw [hr]
        refine .noValue rfl hc (.inr ⟨hkind, ?_⟩)
        rintro v rfl
        simp at he
      · rw [if_neg he] at hr
        have hv : arg = name ++ '=' :: arg.drop (name.length + 1) := by
          rw [← hv0] at he ⊢
          cases v0 with
          | nil => simp at he
          | cons c v0 => simp at he; subst he; simp
        exact one [arg] rest _ rfl rfl (by simp [hkind]) (.equal hc hkind hv) hr
    | concat =>
      rw [hkind] at hr
      obtain ⟨v0, hv0⟩ := hc.1.2.2
      have hv : arg = name ++ arg.drop name.length := by rw [← hv0]; simp
      exact one [arg] rest _ rfl rfl (by simp [hkind]) (.concat hc hkind hv) hr
    | multi =>
      rw [hkind] at hr
      simp only at hr
      rw [values_spec] at hr
      have hfirst : First x.table x.keeps (arg :: rest) (arg :: rest.takeWhile fun v => matched x.table v = []) (rest.dropWhile fun v => matched x.table v = [])
          ((rest.takeWhile fun v => matched x.table v = []).map fun v => ⟨name, o, some v⟩) [] := by
        refine ⟨by rw [List.cons_append, List.takeWhile_append_dropWhile], .multi hc hkind ?_, fun _ a ha => ?_⟩
        · intro v hv
          have := List.mem_takeWhile_imp hv
          rw [← known_iff ht]
          simpa using this
        · rw [← known_iff ht]
          have := List.head?_dropWhile_not (fun v => decide (matched x.table v = [])) rest
          rw [ha] at this
          simpa using this
      have hlen : rest.length - (rest.dropWhile fun v => decide (matched x.table v = [])).length = (rest.takeWhile fun v => decide (matched x.table v = [])).length := by
        have := congrArg List.length (List.takeWhile_append_dropWhile (p := fun v => decide (matched x.table v = [])) (l := rest))
        rw [List.length_append] at this
        omega
      cases hs : settle ans ((rest.takeWhile fun v => matched x.table v = []).map fun v => ⟨name, o, some v⟩) s.w with
      | mk w b =>
        rw [hs] at hr
        cases b with
        | false => rw [hr]; exact .fail hfirst hs
        | true =>
          refine .group hfirst hs ?_
          rw [hr]
          simp only [hlen, List.length_cons, List.append_nil]
          rw [Nat.add_comm 1]

/-! ### Readings -/

theorem Group.ne_nil {t : OMap Str Opt} {store : Bool} {g : List Str} {es : List Setting} {us : List Str} (h : Group t store g es us) : g ≠ [] := by
  cases h <;> simp

/-- How a group begins. -/
theorem First.unique {t : OMap Str Opt} {store : Bool} {args g rest g' rest' : List Str} {es es' : List Setting} {us us' : List Str}
    (h : First t store args g rest es us) (h' : First t store args g' rest' es' us') : g = g' ∧ rest = rest' ∧ es = es' ∧ us = us' := by
  obtain ⟨e, hg, ha⟩ := h
  obtain ⟨e', hg', ha'⟩ := h'
  subst e
  have pre : ∀ {vs vs' r r' : List Str}, (∀ v ∈ vs, ¬ Known t v) → (∀ v ∈ vs', ¬ Known t v) → (∀ a, r.head? = some a → Known t a) → (∀ a, r'.head? = some a → Known t a) →
      vs ++ r = vs' ++ r' → vs = vs' := by
    intro vs
    induction vs with
    | nil =>
      intro vs' r r' _ h2 h3 _ e
      cases vs' with
      | nil => rfl
      | cons v vs' => rw [List.nil_append] at e; exact absurd (h3 v (by rw [e]; rfl)) (h2 v List.mem_cons_self)
    | cons v vs ih =>
      intro vs' r r' h1 h2 h3 h4 e
      cases vs' with
      | nil => rw [List.nil_append] at e; exact absurd (h4 v (by rw [← e]; rfl)) (h1 v List.mem_cons_self)
      | cons v' vs' =>
        simp only [List.cons_append, List.cons.injEq] at e
        rw [e.1, ih (fun x hx => h1 x (List.mem_cons_of_mem _ hx)) (fun x hx => h2 x (List.mem_cons_of_mem _ hx)) h3 h4 e.2]
  have clash : ∀ {n n' : Str} {o o' : Opt} {a : Str}, Chosen t a n o → Chosen t a n' o' → o.kind = o'.kind ∧ n = n' ∧ o = o' := by
    intro n n' o o' a h1 h2
    obtain ⟨rfl, rfl⟩ := h1.unique h2
    exact ⟨rfl, rfl, rfl⟩
  cases hg with
  | flag c k =>
    cases hg' with
    | flag c' k' => simp only [List.cons_append, List.nil_append, List.cons.injEq] at e'; obtain ⟨rfl, rfl⟩ := e'; obtain ⟨-, rfl, rfl⟩ := clash c c'; exact ⟨rfl, rfl, rfl, rfl⟩
    | space c' k' | equal c' k' _ | concat c' k' _ | multi c' k' _ =>
      simp only [List.cons_append, List.nil_append, List.cons.injEq] at e'
      rw [← e'.1] at c'
      have := (clash c c').1
      rw [k, k'] at this; cases this
    | unknown u _ => simp only [List.cons_append, List.nil_append, List.cons.injEq] at e'; rw [← e'.1] at u; exact absurd ⟨_, _, c.1⟩ u
  | space c k =>
    cases hg' with
    | space c' k' => simp only [List.cons_append, List.nil_append, List.cons.injEq] at e'; obtain ⟨rfl, rfl, rfl⟩ := e'; obtain ⟨-, rfl, rfl⟩ := clash c c'; exact ⟨rfl, rfl, rfl, rfl⟩
    | flag c' k' | equal c' k' _ | concat c' k' _ | multi c' k' _ =>
      simp only [List.cons_append, List.nil_append, List.cons.injEq] at e'
      rw [← e'.1] at c'
      have := (clash c c').1
      rw [k, k'] at this; cases this
    | unknown u _ => simp only [List.cons_append, List.nil_append, List.cons.injEq] at e'; rw [← e'.1] at u; exact absurd ⟨_, _, c.1⟩ u
  | equal c k w =>
    cases hg' with
    | equal c' k' w' =>
      simp only [List.cons_append, List.nil_append, List.cons.injEq] at e'
      obtain ⟨rfl, rfl⟩ := e'
      obtain ⟨-, rfl, rfl⟩ := clash c c'
      rw [w] at w'
      have := List.append_cancel_left w'
      simp only [List.cons.injEq, true_and] at this
      subst this
      exact ⟨rfl, rfl, rfl, rfl⟩
    | flag c' k' | space c' k' | concat c' k' _ | multi c' k' _ =>
      simp only [List.cons_append, List.nil_append, List.cons.injEq] at e'
      rw [← e'.1] at c'
      have := (clash c c').1
      rw [k, k'] at this; cases this
    | unknown u _ => simp only [List.cons_append, List.nil_append, List.cons.injEq] at e'; rw [← e'.1] at u; exact absurd ⟨_, _, c.1⟩ u
  | concat c k w =>
    cases hg' with
    | concat c' k' w' =>
      simp only [List.cons_append, List.nil_append, List.cons.injEq] at e'
      obtain ⟨rfl, rfl⟩ := e'
      obtain ⟨-, rfl, rfl⟩ := clash c c'
      rw [w] at w'
      rw [List.append_cancel_left w']
      exact ⟨rfl, rfl, rfl, rfl⟩
    | flag c' k' | space c' k' | equal c' k' _ | multi c' k' _ =>
      simp only [List.cons_append, List.nil_append, List.cons.injEq] at e'
      rw [← e'.1] at c'
      have := (clash c c').1
      rw [k, k'] at this; cases this
    | unknown u _ => simp only [List.cons_append, List.nil_append, List.cons.injEq] at e'; rw [← e'.1] at u; exact absurd ⟨_, _, c.1⟩ u
  | multi c k u =>
    cases hg' with
    | multi c' k' u' =>
      simp only [List.cons_append, List.cons.injEq] at e'
      obtain ⟨rfl, e'⟩ := e'
      have ea := ha ⟨_, _, _, rfl, c, k⟩
      have ea' := ha' ⟨_, _, _, rfl, c', k'⟩
      obtain ⟨-, rfl, rfl⟩ := clash c c'
      have := pre u u' ea ea' e'
      subst this
      exact ⟨rfl, List.append_cancel_left e', rfl, rfl⟩
    | flag c' k' | space c' k' | equal c' k' _ | concat c' k' _ =>
      simp only [List.cons_append, List.nil_append, List.cons.injEq] at e'
      rw [← e'.1] at c'
      have := (clash c c').1
      rw [k, k'] at this; cases this
    | unknown u _ => simp only [List.cons_append, List.nil_append, List.cons.injEq] at e'; rw [← e'.1] at u; exact absurd ⟨_, _, c.1⟩ u
  | unknown u k =>
    cases hg' with
    | flag c' k' | space c' k' | equal c' k' _ | concat c' k' _ | multi c' k' _ =>
      simp only [List.cons_append, List.nil_append, List.cons.injEq] at e'
      rw [← e'.1] at c'
      exact absurd ⟨_, _, c'.1⟩ u
    | unknown u' _ =>
      simp only [List.cons_append, List.nil_append, List.cons.injEq] at e'
      obtain ⟨rfl, rfl⟩ := e'
      exact ⟨rfl, rfl, rfl, rfl⟩

theorem Reads.first {t : OMap Str Opt} {store : Bool} {a : Str} {args : List Str} {es : List Setting} {us : List Str} (h : Reads t store (a :: args) es us) :
    ∃ g rest es1 us1 es2 us2, First t store (a :: args) g rest es1 us1 ∧ Reads t store rest es2 us2 ∧ es = es1 ++ es2 ∧ us = us1 ++ us2 := by
  generalize e : a :: args = l at h
  cases h with
  | nil => cases e
  | cons hg hm hr => exact ⟨_, _, _, _, _, _, ⟨rfl, hg, hm⟩, hr, rfl, rfl⟩

/-- The arguments can be read in at most one way. -/
theorem C151_one_reading {t : OMap Str Opt} {store : Bool} {args : List Str} {es es' : List Setting} {us us' : List Str}
    (h : Reads t store args es us) (h' : Reads t store args es' us') : es = es' ∧ us = us' := by
  induction h generalizing es' us' with
  | nil =>
    generalize e : ([] : List Str) = l at h'
    cases h' with
    | nil => exact ⟨rfl, rfl⟩
    | cons hg _ _ => exact absurd (List.append_eq_nil_iff.1 e.symm).1 hg.ne_nil
  | @cons g es1 us1 args es2 us2 hg hm hr ih =>
    obtain ⟨a, l, hal⟩ := List.exists_cons_of_ne_nil (l := g ++ args) (fun h => hg.ne_nil (List.append_eq_nil_iff.1 h).1)
    rw [hal] at h'
    obtain ⟨g', rest', es1', us1', es2', us2', hf, hr', rfl, rfl⟩ := h'.first
    obtain ⟨rfl, rfl, rfl, rfl⟩ := First.unique (⟨hal.symm, hg, hm⟩ : First t store (a :: l) g args es1 us1) hf
    obtain ⟨rfl, rfl⟩ := ih hr'
    exact ⟨rfl, rfl⟩

theorem parseLoop_nil (ans : List Call → Call → Bool) (x : Obj) (n cc : Nat) (s : Loop) : parseLoop ans x n cc [] s = (s, true) := by
  cases n <;> rfl

theorem loop_reads (ans : List Call → Call → Bool) (x : Obj) (ht : x.table.Sorted) (hu : x.unknownCallback = none) : ∀ (n cc : Nat) (args : List Str) (s : Loop), args.length ≤ n →
    (∀ es us, Reads x.table x.store args es us → (let r := parseLoop ans x n cc args s; (r.1.w, r.2) = settle ans es s.w ∧ (r.2 = true → r.1.unused = s.unused ++ us))) ∧
    ((¬ ∃ es us, Reads x.table x.store args es us) → (parseLoop ans x n cc args s).2 = false) := by
  have hk : x.keeps = x.store := by simp [Obj.keeps, hu]
  intro n
  induction n with
  | zero =>
    intro cc args s hn
    have : args = [] := List.length_eq_zero_iff.1 (by omega)
    subst this
    refine ⟨fun es us h => ?_, fun h => absurd ⟨[], [], .nil⟩ h⟩
    obtain ⟨rfl, rfl⟩ := C151_one_reading h .nil
    simp [parseLoop_nil, settle]
  | succ n ih =>
    intro cc args s hn
    cases args with
    | nil =>
      refine ⟨fun es us h => ?_, fun h => absurd ⟨[], [], .nil⟩ h⟩
      obtain ⟨rfl, rfl⟩ := C151_one_reading h .nil
      simp [parseLoop_nil, settle]
    | cons arg rest =>
      have ht := turn ans x ht n cc arg rest s
      generalize parseLoop ans x (n + 1) cc (arg :: rest) s = r at ht
      cases ht with
      | @group g rest' es1 us1 w1 _ hf hs hr =>
        rw [hk] at hf
        have hl : rest'.length ≤ n := by
          have h1 := congrArg List.length hf.text
          have h2 := List.length_pos_iff.2 hf.group.ne_nil
          simp only [List.length_cons, List.length_append] at h1 hn
          omega
        obtain ⟨i1, i2⟩ := ih (cc + g.length) rest' ⟨w1, cc, s.unused ++ us1⟩ hl
        rw [← hr] at i1 i2
        refine ⟨fun es us h => ?_, fun h => ?_⟩
        · obtain ⟨g', rest2, es1', us1', es2, us2, hf', hr', rfl, rfl⟩ := h.first
          obtain ⟨rfl, rfl, rfl, rfl⟩ := hf.unique hf'
          obtain ⟨j1, j2⟩ := i1 es2 us2 hr'
          refine ⟨?_, fun hb => by rw [j2 hb, List.append_assoc]⟩
          rw [j1, settle_append, hs]
        · apply i2
          rintro ⟨es2, us2, h2⟩
          exact h ⟨es1 ++ es2, us1 ++ us2, hf.text ▸ .cons hf.group hf.all h2⟩
      | @fail g rest' es1 us1 w1 hf hs =>
        rw [hk] at hf
        refine ⟨fun es us h => ?_, fun _ => rfl⟩
        obtain ⟨g', rest2, es1', us1', es2, us2, hf', hr', rfl, rfl⟩ := h.first
        obtain ⟨rfl, rfl, rfl, rfl⟩ := hf.unique hf'
        exact ⟨by rw [settle_append, hs], by simp⟩
      | noValue e hc hv =>
        refine ⟨fun es us h => ?_, fun _ => rfl⟩
        obtain ⟨g', rest2, es1', us1', es2, us2, hf', hr', rfl, rfl⟩ := h.first
        obtain ⟨e', hg, -⟩ := hf'
        cases e
        cases hg with
        | flag c k | concat c k _ | multi c k _ =>
          simp only [List.cons_append, List.cons.injEq] at e'
          rw [← e'.1] at c
          obtain ⟨rfl, rfl⟩ := hc.unique c
          rw [k] at hv; simp at hv
        | space c k =>
          simp only [List.cons_append, List.cons.injEq] at e'
          rw [← e'.1] at c
          obtain ⟨rfl, rfl⟩ := hc.unique c
          rw [k, e'.2] at hv; simp at hv
        | equal c k u =>
          simp only [List.cons_append, List.cons.injEq] at e'
          rw [← e'.1] at c u
          obtain ⟨rfl, rfl⟩ := hc.unique c
          rw [k] at hv
          rcases hv with hv | hv
          · cases hv.1
          · exact absurd u (hv.2 _)
        | unknown u _ =>
          simp only [List.cons_append, List.cons.injEq] at e'
          rw [← e'.1] at u
          exact absurd ⟨_, _, hc.1⟩ u
      | unknownFail e hk' hu' hst =>
        refine ⟨fun es us h => ?_, fun _ => rfl⟩
        obtain ⟨g', rest2, es1', us1', es2, us2, hf', hr', rfl, rfl⟩ := h.first
        obtain ⟨e', hg, -⟩ := hf'
        cases e
        cases hg with
        | flag c k | concat c k _ | multi c k _ | space c k | equal c k _ =>
          simp only [List.cons_append, List.cons.injEq] at e'
          rw [← e'.1] at c
          exact absurd ⟨_, _, c.1⟩ hk'
        | unknown u hh => rw [hst] at hh; exact absurd hh (by decide)
      | unknownCall e hk' hu' _ => rw [hu] at hu'; cases hu'

/-- C151: the arguments are read in one way or not at all; if they can be read, Parse makes the settings of that reading in order, and returns 1
    unless one of the functions called fails, after which nothing more is done; it keeps the unknown arguments if asked to. If they
    cannot be read, Parse returns 0. -/
theorem C151_parse (ans : List Call → Call → Bool) (x : Obj) (ht : x.table.Sorted) (hu : x.unknownCallback = none) (w : World) :
    (∀ es us, Reads x.table x.store x.argv es us →
      (parse ans x w).2 = settle ans es w ∧ ((parse ans x w).2.2 = true → (parse ans x w).1.getUnusedArguments = x.argv0 :: if x.store then us else x.unused)) ∧
    ((¬ ∃ es us, Reads x.table x.store x.argv es us) → (parse ans x w).2.2 = false) := by
  obtain ⟨h1, h2⟩ := loop_reads ans x ht hu x.argv.length 0 x.argv ⟨w, x.last, if x.store then [] else x.unused⟩ (Nat.le_refl _)
  refine ⟨fun es us h => ?_, h2⟩
  obtain ⟨h3, h4⟩ := h1 es us h
  refine ⟨h3, fun hb => ?_⟩
  have h5 := h4 hb
  unfold Obj.getUnusedArguments parse
  simp only
  rw [h5]
  cases hs : x.store with
  | true => simp
  | false =>
    simp only [Bool.false_eq_true, ↓reduceIte]
    have : us = [] := by
      clear h1 h2 h3 h4 h5 hb
      rw [hs] at h
      generalize x.argv = l at h
      induction h with
      | nil => rfl
      | cons hg _ _ ih =>
        rw [ih, List.append_nil]
        cases hg with
        | unknown _ h => cases h
        | _ => rfl
    simp [this]

/-- The table is sorted whatever is registered. -/
theorem add_sorted {x : Obj} (h : x.table.Sorted) (name : Str) (o : Opt) : (x.add name o).table.Sorted := OMap.sorted_insert h name o

/-! ### The last argument -/

/-- How the loop ends early: `post` is what was not read. -/
theorem loop_stop (ans : List Call → Call → Bool) (x : Obj) (ht : x.table.Sorted) : ∀ (n cc : Nat) (args : List Str) (s : Loop), args.length ≤ n →
    (parseLoop ans x n cc args s).2 = false →
    ∃ pre bad post es us, args = pre ++ bad :: post ∧ Reads x.table x.keeps pre es us ∧ (parseLoop ans x n cc args s).1.last = pred64 (cc + pre.length) ∧
      (parseLoop ans x n cc args s).1.unused = s.unused ++ us := by
  intro n
  induction n with
  | zero => intro cc args s hn h; rw [parseLoop] at h; exact absurd h (by simp)
  | succ n ih =>
    intro cc args s hn h
    cases args with
    | nil => rw [parseLoop_nil] at h; exact absurd h (by simp)
    | cons arg rest =>
      have ht := turn ans x ht n cc arg rest s
      generalize parseLoop ans x (n + 1) cc (arg :: rest) s = r at ht h ⊢
      have here : ∃ pre bad post es us, arg :: rest = pre ++ bad :: post ∧ Reads x.table x.keeps pre es us ∧
          pred64 cc = pred64 (cc + pre.length) ∧ s.unused = s.unused ++ us :=
        ⟨[], arg, rest, [], [], rfl, .nil, by simp, by simp⟩
      cases ht with
      | @group g rest' es1 us1 w1 _ hf hs hr =>
        have hl : rest'.length ≤ n := by
          have h1 := congrArg List.length hf.text
          have h2 := List.length_pos_iff.2 hf.group.ne_nil
          simp only [List.length_cons, List.length_append] at h1 hn
          omega
        rw [hr] at h ⊢
        obtain ⟨pre, bad, post, es, us, e, h1, h2, h3⟩ := ih _ rest' _ hl h
        refine ⟨g ++ pre, bad, post, es1 ++ es, us1 ++ us, by rw [hf.text, e, List.append_assoc], .cons hf.group ?_ h1, ?_, ?_⟩
        · intro hm a ha
          refine hf.all hm a ?_
          rw [e]
          cases pre with
          | nil => cases ha
          | cons b pre => exact ha
        · rw [h2, List.length_append, Nat.add_assoc]
        · rw [h3, List.append_assoc]
      | fail hf hs => dsimp only; exact here
      | noValue e hc hv => dsimp only; exact here
      | unknownFail e hk' hu' hst => dsimp only; exact here
      | @unknownCall bad rest' id b e hk' hu' hb =>
        simp only at h
        subst h
        simp only [Bool.false_eq_true, ↓reduceIte]
        exact here

theorem pred64_succ {n : Nat} (h : n < 2 ^ 64) : succ64 (pred64 n) = n := by
  unfold succ64 pred64
  split <;> split <;> omega

/-- C152: when Parse returns 0, GetLastArgument is the index (counted with the program name) of the last argument read before the one that failed,
    and the remaining arguments are the one that failed and all after it. -/
theorem C152_failed (ans : List Call → Call → Bool) (x : Obj) (ht : x.table.Sorted) (hlen : x.argv.length < 2 ^ 31) (w : World) (h : (parse ans x w).2.2 = false) :
    ∃ pre bad post es us, x.argv = pre ++ bad :: post ∧ Reads x.table x.keeps pre es us ∧ (parse ans x w).1.getLastArgument = pre.length ∧
      (parse ans x w).1.getRemainingArguments.1 = x.argv0 :: bad :: post ∧ (x.store = true → (parse ans x w).1.unused = us) := by
  obtain ⟨pre, bad, post, es, us, e, h1, h2, h3⟩ := loop_stop ans x ht x.argv.length 0 x.argv _ (Nat.le_refl _) h
  have hl : pre.length < 2 ^ 31 := by rw [e] at hlen; simp only [List.length_append, List.length_cons] at hlen; omega
  have hlast : succ64 (parse ans x w).1.last = pre.length := by
    show succ64 (parseLoop ans x _ 0 x.argv _).1.last = _
    rw [h2, pred64_succ (by omega), Nat.zero_add]
  refine ⟨pre, bad, post, es, us, e, h1, ?_, ?_, ?_⟩
  · unfold Obj.getLastArgument
    rw [hlast]; omega
  · unfold Obj.getRemainingArguments
    simp only
    rw [hlast]
    show x.argv0 :: x.argv.drop pre.length = _
    rw [e]; simp
  · intro hs
    show (parseLoop ans x _ 0 x.argv _).1.unused = _
    rw [h3, hs]; simp

/-- C152: when Parse returns 1 (all arguments were read), the last argument read should be the last one, and none should remain. -/
def LastSpec (x : Obj) : Prop := ∀ ans w, (parse ans x w).2.2 = true →
  (parse ans x w).1.getLastArgument = x.argv.length ∧ (parse ans x w).1.getRemainingArguments.1 = [x.argv0]

theorem loop_last (ans : List Call → Call → Bool) (x : Obj) (ht : x.table.Sorted) (hu : x.unknownCallback = none) {pre : List Str} {es : List Setting} {us : List Str}
    (h : Reads x.table x.store pre es us) {a : Str} {es1 : List Setting} {us1 : List Str} (ha : pre = [] ∨ Known x.table a) (hg : Group x.table x.store [a] es1 us1) :
    ∀ (n cc : Nat) (s : Loop), (pre ++ [a]).length ≤ n → (parseLoop ans x n cc (pre ++ [a]) s).2 = true → (parseLoop ans x n cc (pre ++ [a]) s).1.last = cc + pre.length := by
  have hk : x.keeps = x.store := by simp [Obj.keeps, hu]
  have step : ∀ {g rest : List Str} {es us}, First x.table x.store (g ++ rest) g rest es us → ∀ n cc s, (g ++ rest).length ≤ n + 1 →
      (parseLoop ans x (n + 1) cc (g ++ rest) s).2 = true → ∃ w, parseLoop ans x (n + 1) cc (g ++ rest) s = parseLoop ans x n (cc + g.length) rest ⟨w, cc, s.unused ++ us⟩ := by
    intro g rest es us hf n cc s hn hb
    obtain ⟨b, l, hal⟩ := List.exists_cons_of_ne_nil (l := g ++ rest) (fun h => hf.group.ne_nil (List.append_eq_nil_iff.1 h).1)
    rw [hal] at hb hf ⊢
    have htn := turn ans x ht n cc b l s
    generalize parseLoop ans x (n + 1) cc (b :: l) s = r at htn hb
    cases htn with
    | @group g' rest' es1 us1 w1 _ hf' hs hr =>
      rw [hk] at hf'
      obtain ⟨rfl, rfl, rfl, rfl⟩ := hf.unique hf'
      exact ⟨w1, hr⟩
    | fail hf hs => cases hb
    | noValue e hc hv => cases hb
    | unknownFail e hk' hu' hst => cases hb
    | unknownCall e hk' hu' hb => rw [hu] at hu'; cases hu'
  generalize e : pre = l at h
  induction h generalizing pre with
  | nil =>
    intro n cc s hn hb
    cases n with
    | zero => simp at hn
    | succ n =>
      have hf : First x.table x.store ([a] ++ []) [a] [] es1 us1 := ⟨rfl, hg, fun _ b hb => by cases hb⟩
      obtain ⟨w, hw⟩ := step hf n cc s hn hb
      rw [List.append_nil] at hw
      rw [List.nil_append, hw, parseLoop_nil]; rfl
  | @cons g es2 us2 args es3 us3 hg2 hm hr ih =>
    subst e
    have hka : Known x.table a := ha.resolve_left (fun h => hg2.ne_nil (List.append_eq_nil_iff.1 h).1)
    intro n cc s hn hb
    cases n with
    | zero => simp at hn
    | succ n =>
      have hf : First x.table x.store (g ++ (args ++ [a])) g (args ++ [a]) es2 us2 := by
        refine ⟨rfl, hg2, fun h b hb => ?_⟩
        cases args with
        | nil => simp only [List.nil_append, List.head?_cons, Option.some.injEq] at hb; exact hb ▸ hka
        | cons c args => exact hm h b hb
      rw [List.append_assoc] at hn hb ⊢
      obtain ⟨w, hw⟩ := step hf n cc s hn hb
      rw [hw] at hb ⊢
      rw [ih (.inr hka) rfl n _ _ (by
        have := List.length_pos_iff.2 hg2.ne_nil
        simp only [List.length_append, List.length_cons, List.length_nil] at hn ⊢; omega) hb, List.length_append, Nat.add_assoc]

/-- C152 for arguments of which the last one is not a value of the one before. -/
theorem C152_last_partial (x : Obj) (ht : x.table.Sorted) (hu : x.unknownCallback = none) (hlen : x.argv.length < 2 ^ 31) {pre : List Str} {es es1 : List Setting} {us us1 : List Str} {a : Str}
    (he : x.argv = pre ++ [a]) (h : Reads x.table x.store pre es us) (ha : pre = [] ∨ Known x.table a) (hg : Group x.table x.store [a] es1 us1) : LastSpec x := by
  intro ans w hb
  have hlast : (parse ans x w).1.last = pre.length := by
    have := loop_last ans x ht hu h ha hg x.argv.length 0 ⟨w, x.last, if x.store then [] else x.unused⟩ (by rw [he])
    rw [← he] at this
    have := this hb
    rw [Nat.zero_add] at this
    exact this
  have hl : x.argv.length = pre.length + 1 := by rw [he]; simp
  refine ⟨?_, ?_⟩
  · unfold Obj.getLastArgument
    rw [hlast, succ64, if_neg (by omega)]; omega
  · unfold Obj.getRemainingArguments
    simp only
    rw [hlast, succ64, if_neg (by omega)]
    show x.argv0 :: x.argv.drop (pre.length + 1) = _
    rw [List.drop_eq_nil_of_le (by omega)]

/-- Options of plugin_explorer. -/
-- models: vital/tools/plugin_explorer.cxx:152-158
def explorer : Obj :=
  ((((((Obj.new.add (c!"--help") ⟨.flag, .var 0 .bool false, c!"Display usage information"⟩).add (c!"--plugin-name") ⟨.space, .var 1 .string false, c!"Display usage information"⟩).add
    (c!"--detail") ⟨.flag, .var 2 .bool false, c!"Display detailed information about plugins"⟩).add (c!"-d") ⟨.flag, .var 2 .bool false, c!"Display detailed information about plugins"⟩).add
    (c!"--config") ⟨.flag, .var 3 .bool false, c!"Display configuration information needed by plugins"⟩).add (c!"--path") ⟨.space, .call 0, c!"Add directory to plugin search path"⟩).add
    (c!"-I") ⟨.concat, .call 0, c!"Add directory to plugin search path"⟩

def agree : List Call → Call → Bool := fun _ _ => true
def start : World := ⟨fun _ => [], []⟩

/-- C152 is violated: after `--path d`, both read, the last argument is said to be the first, and `d` to remain. -/
theorem C152_last_refuted : ¬ LastSpec (explorer.initialize (c!"prog") [c!"--path", c!"d"]) := by
  intro h
  have := (h agree start (by decide +kernel)).1
  revert this
  decide +kernel

theorem loop_range (ans : List Call → Call → Bool) (x : Obj) (ht : x.table.Sorted) : ∀ (n cc : Nat) (args : List Str) (s : Loop), args.length ≤ n →
    (parseLoop ans x n cc args s).1.last = s.last ∨ ∃ k, cc ≤ k ∧ k < cc + args.length ∧ ((parseLoop ans x n cc args s).1.last = k ∨ (parseLoop ans x n cc args s).1.last = pred64 k) := by
  intro n
  induction n with
  | zero => intro cc args s hn; left; rfl
  | succ n ih =>
    intro cc args s hn
    cases args with
    | nil => left; rw [parseLoop_nil]
    | cons arg rest =>
      have ht := turn ans x ht n cc arg rest s
      generalize parseLoop ans x (n + 1) cc (arg :: rest) s = r at ht ⊢
      cases ht with
      | @group g rest' es1 us1 w1 _ hf hs hr =>
        have h1 := congrArg List.length hf.text
        have h2 := List.length_pos_iff.2 hf.group.ne_nil
        simp only [List.length_cons, List.length_append] at h1 hn
        have := ih (cc + g.length) rest' ⟨w1, cc, s.unused ++ us1⟩ (by omega)
        rw [← hr] at this
        right
        rcases this with h | ⟨k, k1, k2, k3⟩
        · exact ⟨cc, Nat.le_refl _, by simp, .inl h⟩
        · exact ⟨k, by omega, by simp only [List.length_cons]; omega, k3⟩
      | fail hf hs => right; exact ⟨cc, Nat.le_refl _, by simp, .inr rfl⟩
      | noValue e hc hv => right; exact ⟨cc, Nat.le_refl _, by simp, .inr rfl⟩
      | unknownFail e hk' hu' hst => right; exact ⟨cc, Nat.le_refl _, by simp, .inr rfl⟩
      | @unknownCall bad rest' id b e hk' hu' hb =>
        right
        refine ⟨cc, Nat.le_refl _, by simp, ?_⟩
        cases b
        · exact .inr rfl
        · exact .inl rfl

/-- The array for the remaining arguments is large enough, after Parse as before. -/
theorem C152_memory (ans : List Call → Call → Bool) (x : Obj) (ht : x.table.Sorted) (argv0 : Str) (args : List Str) (hlen : args.length < 2 ^ 31) (w : World) :
    let y := x.initialize argv0 args
    y.getRemainingArguments.1.length ≤ y.getRemainingArguments.2 ∧
    (parse ans y w).1.getRemainingArguments.1.length ≤ (parse ans y w).1.getRemainingArguments.2 := by
  intro y
  have key : ∀ z : Obj, z.argv = args → (z.last ≤ args.length ∨ z.last = 2 ^ 64 - 1) → z.getRemainingArguments.1.length ≤ z.getRemainingArguments.2 := by
    intro z hz hl
    unfold Obj.getRemainingArguments
    simp only [List.length_cons, List.length_drop, hz]
    rcases hl with hl | hl
    · rw [succ64, if_neg (by omega)]; omega
    · rw [hl, succ64, if_pos rfl]; omega
  refine ⟨key y rfl (.inl (Nat.zero_le _)), key _ rfl ?_⟩
  have hr := loop_range ans y ht y.argv.length 0 y.argv ⟨w, y.last, if y.store then [] else y.unused⟩ (Nat.le_refl _)
  have e : (parse ans y w).1.last = (parseLoop ans y y.argv.length 0 y.argv ⟨w, y.last, if y.store then [] else y.unused⟩).1.last := rfl
  rw [← e] at hr
  have hy : y.argv = args := rfl
  rw [hy] at hr
  rcases hr with h | ⟨k, -, k2, h | h⟩
  · left; rw [h]; exact Nat.zero_le _
  · left; omega
  · rw [h]
    unfold pred64
    split
    · right; rfl
    · left; omega

/-! ### What the settings do -/

/-- C151: a variable with one value has that of the last setting made for it, a vector has all values in order, other variables are unchanged; the functions are
    called in order with the values. -/
theorem C151_effects (ans : List Call → Call → Bool) : ∀ (es : List Setting) (w w' : World), settle ans es w = (w', true) →
    (∀ a, (∀ e ∈ es, ∀ b v, e.o.act ≠ .var a b v) → w'.vars a = w.vars a) ∧
    (∀ pre e post a b, es = pre ++ e :: post → e.o.act = .var a b false → (∀ e' ∈ post, ∀ b' v', e'.o.act ≠ .var a b' v') → w'.vars a = [convert b (e.value.getD (c!"1"))]) ∧
    (∀ a b, (∀ e ∈ es, ∀ b' v', e.o.act = .var a b' v' → b' = b ∧ v' = true) →
      w'.vars a = w.vars a ++ ((es.filter fun e => e.o.act = .var a b true).map fun e => convert b (e.value.getD (c!"1")))) ∧
    w'.calls = w.calls ++ es.filterMap fun e => match e.o.act with | .call id => some (.option id e.name e.value) | _ => none := by
  intro es
  induction es with
  | nil =>
    intro w w' h
    simp only [settle, Prod.mk.injEq, and_true] at h
    subst h
    exact ⟨fun _ _ => rfl, fun pre e post a b h => by simp at h, fun _ _ _ => by simp, by simp⟩
  | cons e es ih =>
    intro w w' h
    rw [settle] at h
    -- one setting
    cases hp : populate ans e.name e.o e.value w with
    | mk w1 b1 =>
      rw [hp] at h
      cases b1 with
      | false => cases h
      | true =>
        obtain ⟨i1, i2, i3, i4⟩ := ih w1 w' h
        unfold populate at hp
        cases hact : e.o.act with
        | call id =>
          rw [hact] at hp
          simp only [Prod.mk.injEq] at hp
          obtain ⟨rfl, -⟩ := hp
          refine ⟨?_, ?_, ?_, ?_⟩
          · intro a ha; rw [i1 a (fun e' he' => ha e' (List.mem_cons_of_mem _ he'))]
          · intro pre e1 post a b he hv hpost
            cases pre with
            | nil => simp only [List.nil_append, List.cons.injEq] at he; rw [← he.1, hact] at hv; cases hv
            | cons p pre => simp only [List.cons_append, List.cons.injEq] at he; exact i2 pre e1 post a b he.2 hv hpost
          · intro a b ha
            rw [i3 a b (fun e' he' => ha e' (List.mem_cons_of_mem _ he'))]
            simp [hact]
          · rw [i4]; simp [hact]
        | var a0 b0 v0 =>
          rw [hact] at hp
          simp only [Prod.mk.injEq] at hp
          obtain ⟨rfl, -⟩ := hp
          refine ⟨?_, ?_, ?_, ?_⟩
          · intro a ha
            rw [i1 a (fun e' he' => ha e' (List.mem_cons_of_mem _ he'))]
            have : a ≠ a0 := by rintro rfl; exact ha e List.mem_cons_self b0 v0 hact
            simp [this]
          · intro pre e1 post a b he hv hpost
            cases pre with
            | nil =>
              simp only [List.nil_append, List.cons.injEq] at he
              obtain ⟨rfl, rfl⟩ := he
              rw [hact] at hv
              simp only [Act.var.injEq] at hv
              obtain ⟨rfl, rfl, rfl⟩ := hv
              rw [i1 a0 hpost]; simp
            | cons p pre => simp only [List.cons_append, List.cons.injEq] at he; exact i2 pre e1 post a b he.2 hv hpost
          · intro a b ha
            rw [i3 a b (fun e' he' => ha e' (List.mem_cons_of_mem _ he'))]
            by_cases haa : a = a0
            · subst haa
              obtain ⟨rfl, rfl⟩ := ha e List.mem_cons_self b0 v0 hact
              simp [hact]
            · simp [hact, haa, Ne.symm haa]
          · rw [i4]; simp [hact]
        | nothing =>
          rw [hact] at hp
          simp only [Prod.mk.injEq] at hp
          obtain ⟨rfl, -⟩ := hp
          refine ⟨?_, ?_, ?_, ?_⟩
          · intro a ha; rw [i1 a (fun e' he' => ha e' (List.mem_cons_of_mem _ he'))]
          · intro pre e1 post a b he hv hpost
            cases pre with
            | nil => simp only [List.nil_append, List.cons.injEq] at he; rw [← he.1, hact] at hv; cases hv
            | cons p pre => simp only [List.cons_append, List.cons.injEq] at he; exact i2 pre e1 post a b he.2 hv hpost
          · intro a b ha
            rw [i3 a b (fun e' he' => ha e' (List.mem_cons_of_mem _ he'))]
            simp [hact]
          · rw [i4]; simp [hact]

/-- Flags set a truth value, and the number 1. -/
theorem flag_values : convert .bool ((none : Option Str).getD (c!"1")) = .bool true ∧ convert .int ((none : Option Str).getD (c!"1")) = .int 1 := by decide +kernel

/-- C151: the decimal spelling of a number outside int gives the int that has the low 32 bits of the nearest long. -/
theorem C151_out_of_range (n : Int) : ∃ m, convert .int (intStr n) = .int m ∧ -2 ^ 31 ≤ m ∧ m < 2 ^ 31 ∧ (m - max (-2 ^ 63) (min (2 ^ 63 - 1) n)) % 2 ^ 32 = 0 := by
  refine ⟨toInt (intStr n), rfl, ?_⟩
  have hl : ltrim (intStr n) = intStr n := by
    unfold ltrim
    obtain ⟨c, t, hc⟩ := List.exists_cons_of_ne_nil (l := intStr n) (by unfold intStr; split <;> simp [natStr_ne_nil])
    rw [hc, List.dropWhile_cons_of_neg]
    rw [intStr_no_space n c (by rw [hc]; exact List.mem_cons_self)]; simp
  have htw : ∀ m : Nat, (natStr m).takeWhile isDigit = natStr m := fun m => by
    have := (takeWhile_all (natStr_digits m) [] (by simp)).1
    simpa using this
  have key : toInt (intStr n) = ((if n < -2 ^ 63 then -2 ^ 63 else if 2 ^ 63 - 1 < n then 2 ^ 63 - 1 else n) + 2 ^ 31) % 2 ^ 32 - 2 ^ 31 := by
    unfold toInt
    rw [hl]
    unfold intStr
    by_cases hn : n < 0
    · rw [if_pos hn]
      simp only [splitSign, htw, natStr_val, ↓reduceIte]
      have e : -((n.natAbs : Nat) : Int) = n := by omega
      rw [e]
    · rw [if_neg hn]
      have := splitSign_natStr n.natAbs []
      rw [List.append_nil] at this
      rw [this]
      simp only [htw, natStr_val, Bool.false_eq_true, ↓reduceIte]
      have e : ((n.natAbs : Nat) : Int) = n := by omega
      rw [e]
  rw [key]
  refine ⟨by omega, by omega, ?_⟩
  split
  · omega
  · split <;> omega

example : convert .int (c!"9223372036854775808") = .int (-1) ∧ convert .int (c!"4294967297") = .int 1 := by decide +kernel

/-- C151: the decimal spelling of an int, with white space before it or anything but a digit after it, gives that int; the words for true are exactly
    1, on, true, yes with the usual capitals; a string is taken as it is. -/
theorem C151_values :
    (∀ (n : Int) (ws rest : Str), -2 ^ 31 ≤ n → n < 2 ^ 31 → (∀ c ∈ ws, isSpace c = true) → (∀ c, rest.head? = some c → isDigit c = false) →
      convert .int (ws ++ intStr n ++ rest) = .int n) ∧
    (∀ s, convert .bool s = .bool true ↔ s = c!"1" ∨ s = c!"ON" ∨ s = c!"on" ∨ s = c!"On" ∨ s = c!"TRUE" ∨ s = c!"true" ∨ s = c!"True" ∨ s = c!"yes" ∨ s = c!"Yes" ∨ s = c!"YES") ∧
    (∀ s, convert .string s = .string s) := by
  refine ⟨?_, ?_, fun _ => rfl⟩
  · intro n ws rest h1 h2 hws hr
    have hl : ltrim (ws ++ intStr n ++ rest) = intStr n ++ rest := by
      rw [List.append_assoc]
      unfold ltrim
      induction ws with
      | nil =>
        obtain ⟨c, t, hc⟩ := List.exists_cons_of_ne_nil (l := intStr n) (by unfold intStr; split <;> simp [natStr_ne_nil])
        rw [List.nil_append, hc, List.cons_append, List.dropWhile_cons_of_neg]
        rw [intStr_no_space n c (by rw [hc]; exact List.mem_cons_self)]; simp
      | cons w ws ih =>
        rw [List.cons_append, List.dropWhile_cons_of_pos (hws w List.mem_cons_self)]
        exact ih (fun c hc => hws c (List.mem_cons_of_mem _ hc))
    show Scalar.int (toInt _) = _
    unfold toInt
    rw [hl]
    have htw : ∀ m : Nat, (natStr m ++ rest).takeWhile isDigit = natStr m := fun m => (takeWhile_all (natStr_digits m) rest hr).1
    unfold intStr
    by_cases hn : n < 0
    · rw [if_pos hn, List.cons_append]
      simp only [splitSign, htw, natStr_val, ↓reduceIte]
      have e : -((n.natAbs : Nat) : Int) = n := by omega
      rw [e, if_neg (by omega), if_neg (by omega)]
      congr 1; omega
    · rw [if_neg hn, splitSign_natStr]
      simp only [htw, natStr_val, Bool.false_eq_true, ↓reduceIte]
      have e : ((n.natAbs : Nat) : Int) = n := by omega
      rw [e, if_neg (by omega), if_neg (by omega)]
      congr 1; omega
  · intro s
    show Scalar.bool _ = _ ↔ _
    simp [trueWords]

example : convert .int (c!" -12x") = .int (-12) ∧ convert .bool (c!"off") = .bool false := by decide +kernel

/-! ### C153 -/

/-- The documentation of CommandLineArguments: a function registered for an argument without a value gets the value "1". -/
def FlagSpec : Prop := ∀ (x : Obj) (name : Str) (id : Nat) (help : Str) (w : World), x.table.Sorted → x.table.find? name = some ⟨.flag, .call id, help⟩ →
  (∀ n o, Names x.table name n o → n = name) → x.argv = [name] → (parse agree x w).2.1.calls = w.calls ++ [.option id name (some (c!"1"))]

def oneFlag : Obj := (Obj.new.add (c!"-v") ⟨.flag, .call 7, []⟩).initialize [] [c!"-v"]

theorem sorted_of_new {name : Str} {o : Opt} : (Obj.new.add name o).table.Sorted := add_sorted (x := Obj.new) List.Pairwise.nil name o

/-- C153 is violated: the function gets a null pointer. -/
theorem C153_flag_refuted : ¬ FlagSpec := by
  intro h
  have := h oneFlag (c!"-v") 7 [] start sorted_of_new (by decide +kernel) (by
    rintro n o ⟨h1, -⟩
    have e : oneFlag.table = [(c!"-v", ⟨.flag, .call 7, []⟩)] := by decide +kernel
    rw [e] at h1
    simp only [OMap.find?] at h1
    split at h1
    · rename_i hh; exact hh.symm
    · cases h1) rfl
  revert this
  decide +kernel

/-- The argument is the option as documented: `--A`, `--A` followed by values, `--A=val`, `--Aval`. -/
def Spelled (name : Str) (o : Opt) (arg : Str) : Prop :=
  match o.kind with
  | .flag | .space | .multi => arg = name
  | .equal => ∃ v, arg = name ++ '=' :: v
  | .concat => ∃ v, arg = name ++ v

/-- C153: if unknown arguments are to be stored, then all arguments that are not options are. -/
def UnknownSpec (t : OMap Str Opt) : Prop := ∀ (x : Obj) (w : World), x.table = t → x.store = true → x.unknownCallback = none →
  (∀ arg ∈ x.argv, ∀ name o, t.find? name = some o → ¬ Spelled name o arg) →
  (parse agree x w).2.2 = true ∧ (parse agree x w).1.getUnusedArguments = x.argv0 :: x.argv

def outTable : OMap Str Opt := (Obj.new.add (c!"--out") ⟨.equal, .var 0 .string false, []⟩).table
def inTable : OMap Str Opt := (Obj.new.add (c!"--in") ⟨.multi, .var 0 .string true, []⟩).table

theorem not_spelled {name0 : Str} {o0 : Opt} {arg : Str} (h : ¬ Spelled name0 o0 arg) {t : OMap Str Opt} (ht : t = [(name0, o0)]) :
    ∀ name o, t.find? name = some o → ¬ Spelled name o arg := by
  intro name o h1
  rw [ht] at h1
  simp only [OMap.find?] at h1
  split at h1
  · rename_i hh; cases h1; exact hh ▸ h
  · cases h1

/-- C153 is violated, with an option `--out=val`: the argument `--output` makes Parse fail. -/
theorem C153_unknown_refuted : ¬ UnknownSpec outTable := by
  intro h
  have := (h ⟨[], [c!"--output"], outTable, none, 0, [], true⟩ start rfl rfl rfl (by
    intro arg ha
    have ha : arg = c!"--output" := List.mem_singleton.1 ha
    subst ha
    refine not_spelled (name0 := c!"--out") (o0 := ⟨.equal, .var 0 .string false, []⟩) ?_ (by decide +kernel)
    rintro ⟨v, hv⟩
    simp at hv)).1
  revert this
  decide +kernel

/-- C153 is violated, with an option `--in` of several values: the argument `--inverse` is taken for the option, and the next argument for its value. -/
theorem C153_unknown_refuted_multi : ¬ UnknownSpec inTable := by
  intro h
  have := (h ⟨[], [c!"--inverse", c!"x"], inTable, none, 0, [], true⟩ start rfl rfl rfl (by
    intro arg ha
    refine not_spelled (name0 := c!"--in") (o0 := ⟨.multi, .var 0 .string true, []⟩) ?_ (by decide +kernel)
    show arg ≠ c!"--in"
    rcases List.mem_cons.1 ha with rfl | ha
    · decide
    · rw [List.mem_singleton.1 ha]; decide)).2
  revert this
  decide +kernel

/-- C153, if no argument begins with the name of an option `--A=val` or `--A val1 val2 ...` (other than options as documented). -/
theorem C153_unknown_partial (t : OMap Str Opt) (ht : t.Sorted) (x : Obj) (w : World) (hx : x.table = t) (hs : x.store = true) (hu : x.unknownCallback = none)
    (h : ∀ arg ∈ x.argv, ∀ name o, t.find? name = some o → ¬ Spelled name o arg ∧ (o.kind = .equal ∨ o.kind = .multi → ¬ name <+: arg)) :
    (parse agree x w).2.2 = true ∧ (parse agree x w).2.1 = w ∧ (parse agree x w).1.getUnusedArguments = x.argv0 :: x.argv := by
  subst hx
  have hk : ∀ arg ∈ x.argv, ¬ Known x.table arg := by
    rintro arg ha ⟨name, o, h1, h2, h3⟩
    obtain ⟨g1, g2⟩ := h arg ha name o h1
    unfold Spelled at g1
    cases hkd : o.kind with
    | flag => rw [hkd] at g1; exact g1 (h2 (.inl hkd))
    | space => rw [hkd] at g1; exact g1 (h2 (.inr hkd))
    | equal => exact g2 (.inl hkd) h3
    | multi => exact g2 (.inr hkd) h3
    | concat => rw [hkd] at g1; obtain ⟨v, hv⟩ := h3; exact g1 ⟨v, hv.symm⟩
  have hr : ∀ args : List Str, (∀ arg ∈ args, ¬ Known x.table arg) → Reads x.table x.store args [] args := by
    intro args
    induction args with
    | nil => intro _; exact .nil
    | cons a args ih =>
      intro hh
      have hka := hh a List.mem_cons_self
      exact .cons (g := [a]) (es := []) (us := [a]) (.unknown hka hs) (by
        rintro ⟨b, n, o, h1, h2, -⟩
        simp only [List.head?_cons, Option.some.injEq] at h1
        subst h1
        exact absurd ⟨n, o, h2.1⟩ hka) (ih fun b hb => hh b (List.mem_cons_of_mem _ hb))
  obtain ⟨h1, h2⟩ := (C151_parse agree x ht hu w).1 [] x.argv (hr _ hk)
  have e : (parse agree x w).2 = (w, true) := h1
  refine ⟨by rw [e], by rw [e], ?_⟩
  rw [h2 (by rw [e]), hs]; simp

theorem loop_unknown (ans : List Call → Call → Bool) (x : Obj) (ht : x.table.Sorted) {id : Nat} (hu : x.unknownCallback = some id) : ∀ (n cc : Nat) (args : List Str) (s : Loop), args.length ≤ n →
    let r := parseLoop ans x n cc args s
    (∃ es us, Reads x.table false args es us ∧ (r.1.w, r.2) = settle ans es s.w) ∨
    (∃ pre bad post es us w1, args = pre ++ bad :: post ∧ Reads x.table false pre es us ∧ settle ans es s.w = (w1, true) ∧ ¬ Known x.table bad ∧
      r.1.w = { w1 with calls := w1.calls ++ [.unknown id bad] } ∧ r.2 = ans w1.calls (.unknown id bad)) ∨
    ((¬ ∃ es us, Reads x.table false args es us) ∧ r.2 = false) ∨ (∃ es, r.2 = false ∧ settle ans es s.w = (r.1.w, false)) := by
  have hk : x.keeps = false := by simp [Obj.keeps, hu]
  intro n
  induction n with
  | zero =>
    intro cc args s hn
    have : args = [] := List.length_eq_zero_iff.1 (by omega)
    subst this
    exact .inl ⟨[], [], .nil, rfl⟩
  | succ n ih =>
    intro cc args s hn
    cases args with
    | nil => exact .inl ⟨[], [], .nil, rfl⟩
    | cons arg rest =>
      have ht := turn ans x ht n cc arg rest s
      intro r
      have hr0 : r = parseLoop ans x (n + 1) cc (arg :: rest) s := rfl
      rw [← hr0] at ht
      clear_value r
      cases ht with
      | @group g rest' es1 us1 w1 _ hf hs hr =>
        rw [hk] at hf
        have h1 := congrArg List.length hf.text
        have h2 := List.length_pos_iff.2 hf.group.ne_nil
        simp only [List.length_cons, List.length_append] at h1 hn
        have := ih (cc + g.length) rest' ⟨w1, cc, s.unused ++ us1⟩ (by omega)
        rw [← hr] at this
        rcases this with ⟨es, us, i1, i2⟩ | ⟨pre, bad, post, es, us, w2, e, i1, i2, i3, i4, i5⟩ | ⟨i1, i2⟩ | ⟨es, i1, i2⟩
        · left
          exact ⟨es1 ++ es, us1 ++ us, hf.text ▸ .cons hf.group hf.all i1, by rw [i2, settle_append, hs]⟩
        · right; left
          refine ⟨g ++ pre, bad, post, es1 ++ es, us1 ++ us, w2, by rw [hf.text, e, List.append_assoc], .cons hf.group ?_ i1, by rw [settle_append, hs]; exact i2, i3, i4, i5⟩
          intro hm a ha
          refine hf.all hm a ?_
          rw [e]
          cases pre with
          | nil => cases ha
          | cons b pre => exact ha
        · right; right; left
          refine ⟨?_, i2⟩
          rintro ⟨es, us, h⟩
          obtain ⟨g', rest2, es1', us1', es2, us2, hf', hr', rfl, rfl⟩ := h.first
          obtain ⟨rfl, rfl, rfl, rfl⟩ := hf.unique hf'
          exact i1 ⟨_, _, hr'⟩
        · right; right; right
          exact ⟨es1 ++ es, i1, by rw [settle_append, hs]; exact i2⟩
      | @fail g rest' es1 us1 w1 hf hs => right; right; right; exact ⟨es1, rfl, hs⟩
      | noValue e hc hv =>
        right; right; left
        refine ⟨?_, rfl⟩
        rintro ⟨es, us, h⟩
        obtain ⟨g', rest2, es1', us1', es2, us2, hf', hr', rfl, rfl⟩ := h.first
        obtain ⟨e', hg, -⟩ := hf'
        cases e
        cases hg with
        | flag c k | concat c k _ | multi c k _ =>
          simp only [List.cons_append, List.cons.injEq] at e'
          rw [← e'.1] at c
          obtain ⟨rfl, rfl⟩ := hc.unique c
          rw [k] at hv; simp at hv
        | space c k =>
          simp only [List.cons_append, List.cons.injEq] at e'
          rw [← e'.1] at c
          obtain ⟨rfl, rfl⟩ := hc.unique c
          rw [k, e'.2] at hv; simp at hv
        | equal c k u =>
          simp only [List.cons_append, List.cons.injEq] at e'
          rw [← e'.1] at c u
          obtain ⟨rfl, rfl⟩ := hc.unique c
          rw [k] at hv
          rcases hv with hv | hv
          · cases hv.1
          · exact absurd u (hv.2 _)
        | unknown u hh => cases hh
      | unknownFail e hk' hu' hst => rw [hu] at hu'; cases hu'
      | @unknownCall bad rest' id' b e hk' hu' hb =>
        rw [hu] at hu'
        cases hu'
        right; left
        exact ⟨[], bad, rest', [], [], s.w, e, .nil, rfl, hk', rfl, hb⟩

/-- C153: with a function for unknown arguments, Parse makes the settings of the arguments before the first unknown one, calls the function with that
    one, and returns what it says; what follows is not read. (Or all arguments can be read, or a function fails or an option has no value before.) -/
theorem C153_unknown_function (ans : List Call → Call → Bool) (x : Obj) (ht : x.table.Sorted) {id : Nat} (hu : x.unknownCallback = some id) (w : World) :
    (∃ es us, Reads x.table false x.argv es us ∧ (parse ans x w).2 = settle ans es w) ∨
    (∃ pre bad post es us w1, x.argv = pre ++ bad :: post ∧ Reads x.table false pre es us ∧ settle ans es w = (w1, true) ∧ ¬ Known x.table bad ∧
      (parse ans x w).2 = ({ w1 with calls := w1.calls ++ [.unknown id bad] }, ans w1.calls (.unknown id bad))) ∨
    ((¬ ∃ es us, Reads x.table false x.argv es us) ∧ (parse ans x w).2.2 = false) ∨ (∃ es, settle ans es w = ((parse ans x w).2.1, false) ∧ (parse ans x w).2.2 = false) := by
  have := loop_unknown ans x ht hu x.argv.length 0 x.argv ⟨w, x.last, if x.store then [] else x.unused⟩ (Nat.le_refl _)
  rcases this with ⟨es, us, h1, h2⟩ | ⟨pre, bad, post, es, us, w1, h1, h2, h3, h4, h5, h6⟩ | ⟨h1, h2⟩ | ⟨es, h1, h2⟩
  · exact .inl ⟨es, us, h1, h2⟩
  · exact .inr (.inl ⟨pre, bad, post, es, us, w1, h1, h2, h3, h4, Prod.ext h5 h6⟩)
  · exact .inr (.inr (.inl ⟨h1, h2⟩))
  · exact .inr (.inr (.inr ⟨es, h2, h1⟩))

/-! ### Examples -/

/-- plugin_explorer with all kinds of options. -/
example : let r := parse agree (explorer.initialize (c!"prog") [c!"-Ia", c!"--plugin-name", c!"--help", c!"-d", c!"--path", c!"b"]) start
    (r.2.2, r.2.1.calls, r.2.1.vars 0, r.2.1.vars 1, r.2.1.vars 2) =
    (true, [.option 0 (c!"-I") (some (c!"a")), .option 0 (c!"--path") (some (c!"b"))], [], [.string (c!"--help")], [.bool true]) := by decide +kernel
/-- A value of `-I`, which may be anything: `-I` alone gives the empty path. -/
example : (parse agree (explorer.initialize (c!"prog") [c!"-I"]) start).2.1.calls = [.option 0 (c!"-I") (some [])] := by decide +kernel
example : (parse agree (explorer.initialize (c!"prog") [c!"-d", c!"--what"]) start).2.2 = false := by decide +kernel
/-- Hypotheses of C151 and a reading. -/
example : explorer.table.Sorted := by unfold explorer; repeat first | exact List.Pairwise.nil | apply add_sorted
example : Reads inTable true [c!"--in", c!"a", c!"b"] [⟨c!"--in", ⟨.multi, .var 0 .string true, []⟩, some (c!"a")⟩, ⟨c!"--in", ⟨.multi, .var 0 .string true, []⟩, some (c!"b")⟩] [] := by
  have hn : ∀ {a n : Str} {o : Opt}, Names inTable a n o → n = c!"--in" := by
    rintro a n o ⟨h, -⟩
    have e : inTable = [(c!"--in", ⟨.multi, .var 0 .string true, []⟩)] := by decide +kernel
    rw [e] at h
    simp only [OMap.find?] at h
    split at h
    · rename_i hh; exact hh.symm
    · cases h
  have hk : ∀ v : Str, v.head? ≠ some '-' → ¬ Known inTable v := by
    rintro v hv ⟨n, o, h⟩
    obtain ⟨y, hy⟩ := h.2.2
    rw [hn h] at hy
    rw [← hy] at hv
    simp at hv
  exact .cons (g := [c!"--in", c!"a", c!"b"]) (us := []) (us' := []) (args := []) (es' := [])
    (.multi (vs := [c!"a", c!"b"]) ⟨⟨by decide +kernel, by simp, List.prefix_rfl⟩, fun n o h => by rw [hn h]⟩ rfl (by
      intro v hv
      rcases List.mem_cons.1 hv with rfl | hv
      · exact hk _ (by decide)
      · rw [List.mem_singleton.1 hv]; exact hk _ (by decide))) (by simp) .nil

end Vital.CmdLine
