import Verif.SysInfo.Props3
/-
  Memory in KiB: vital/kwiversys/SystemInformation.cxx (GetHostMemoryTotal / Available / Used, GetProcMemoryAvailable / Used, Linux branches);
  properties C279 and C280.

  Files contain no NUL bytes.  `istream >> long long` and `atoll` are those of libstdc++ and glibc: the value is saturated, and 0 without digits.
-/
namespace Vital.SysInfo.Lim
open Vital Vital.Stream

/-- The process: two files of /proc (`none` = cannot be opened), its environment and the soft limits that getrlimit tells (`none` = it fails;
    2^64 - 1 is RLIM_INFINITY). -/
structure Proc where
  meminfo : Option Str
  status : Option Str
  env : Str → Option Str
  data : Option Nat
  addressSpace : Option Nat

def infinity : Nat := 2 ^ 64 - 1

-- models: vital/kwiversys/SystemInformation.cxx:921-972 (LoadLines): lines of more than 1023 characters are cut into several
def loadLines : Option Str → List Str
  | none => []
  | some t => (pieces 1023 0 [] t).map fun l => l.takeWhile (· != '\n')

-- models: vital/kwiversys/SystemInformation.cxx:976-996 (NameValue)
def nameValue (lines : List Str) (name : Str) : Option Int :=
  lines.findSome? fun l => (split name l).map fun r => strtol (r.2.drop name.length)

/-- The fields in the order of the names; the error is the one that is returned. -/
def fieldsFrom (lines : List Str) : Int → List Str → Except Int (List Int)
  | _, [] => .ok []
  | i, n :: ns => match nameValue lines n with
    | none => .error (-(i + 2))
    | some v => (fieldsFrom lines (i + 1) ns).map (v :: ·)

-- models: vital/kwiversys/SystemInformation.cxx:1000-1022 (GetFieldsFromFile)
def getFields (file : Option Str) (names : List Str) : Except Int (List Int) :=
  if loadLines file = [] then .error (-1) else fieldsFrom (loadLines file) 0 names

-- models: vital/kwiversys/SystemInformation.cxx:1025-1040 (GetFieldFromFile)
def getField (file : Option Str) (name : Str) : Except Int Int := (getFields file [name]).map (·.headD 0)

-- models: vital/kwiversys/SystemInformation.cxx:3429-3462 (GetHostMemoryTotal)
def hostTotal (p : Proc) : Int := match getField p.meminfo (c!"MemTotal:") with
  | .error _ => -1
  | .ok v => v

/-- A limit in an environment variable, when its name is given. -/
-- models: vital/kwiversys/SystemInformation.cxx:3481-3492, 3511-3522
def envLimit (p : Proc) (name : Option Str) (m : Int) : Int :=
  match name.bind p.env with
  | none => m
  | some v => if strtol v > 0 then min (strtol v) m else m

-- models: vital/kwiversys/SystemInformation.cxx:3470-3495 (GetHostMemoryAvailable)
def hostAvailable (p : Proc) (hostVar : Option Str) : Int := envLimit p hostVar (hostTotal p)

/-- The long long with the same bits as an unsigned one. -/
def signed (n : Nat) : Int := ((n : Int) + 2 ^ 63) % 2 ^ 64 - 2 ^ 63

-- models: vital/kwiversys/SystemInformation.cxx:3527-3531, 3533-3537; the cast comes before the division, which truncates
def rlimit (l : Option Nat) (m : Int) : Int := match l with
  | none => m
  | some n => if n = infinity then m else min ((signed n).tdiv 1024) m

-- models: vital/kwiversys/SystemInformation.cxx:3501-3554 (GetProcMemoryAvailable)
def procAvailable (p : Proc) (hostVar procVar : Option Str) : Int :=
  rlimit p.addressSpace (rlimit p.data (envLimit p procVar (hostAvailable p hostVar)))

-- models: vital/kwiversys/SystemInformation.cxx:3559-3605 (GetHostMemoryUsed)
def hostUsed (p : Proc) : Int := match getFields p.meminfo [c!"MemTotal:", c!"MemFree:"] with
  | .error e => e
  | .ok [t, f] => t - f
  | .ok _ => 0

-- models: vital/kwiversys/SystemInformation.cxx:3611-3640 (GetProcMemoryUsed)
def procUsed (p : Proc) : Int := match getField p.status (c!"VmRSS:") with
  | .error _ => -1
  | .ok v => v

-- models: vital/kwiversys/SystemInformation.cxx:781-797 (GetMemoryDescription)
def description (p : Proc) (hostVar procVar : Option Str) : Str :=
  (c!"Host Total: ") ++ intStr (hostTotal p) ++ (c!" KiB, Host Available: ") ++ intStr (hostAvailable p hostVar) ++ (c!" KiB, Process Available: ") ++
    intStr (procAvailable p hostVar procVar) ++ (c!" KiB")

/-! ### Specification -/

/-- A line `key:value`. -/
structure Line where
  key : Str
  value : Str

def Line.text (l : Line) : Str := l.key ++ ':' :: l.value

/-- No colon in the key, one line that fits in the buffer. -/
def Line.Ok (l : Line) : Prop := ':' ∉ l.key ∧ '\n' ∉ l.key ∧ '\n' ∉ l.value ∧ l.text.length < 1023

def fileOf : List Line → Str
  | [] => []
  | l :: ls => l.text ++ '\n' :: fileOf ls

/-- `v` is the number `n` after blanks, and then something else. -/
def Number (v : Str) (n : Nat) : Prop := ∃ gap rest, v = gap ++ natStr n ++ rest ∧ (∀ c ∈ gap, isSpace c = true) ∧ (∀ c, rest.head? = some c → isDigit c = false)

/-- The file is in order, and the first line with the key says `n`, which fits. -/
structure Says (ls : List Line) (key : Str) (n : Nat) : Prop where
  ok : ∀ l ∈ ls, l.Ok
  value : ∃ l, ls.find? (fun l => l.key = key) = some l ∧ Number l.value n
  fits : n < 2 ^ 63

/-- No line before it contains the key and a colon. -/
def Clear (ls : List Line) (key : Str) : Prop := ∀ l ∈ ls.takeWhile (fun l => l.key ≠ key), ¬ key ++ [':'] <:+: l.text

/-- What the value of an environment variable limits to. -/
inductive Limit : Option Str → List Int → Prop
  | unset : Limit none []
  | number {v n} : Number v n → 0 < n → n < 2 ^ 63 → Limit (some v) [(n : Int)]
  | zero {v} : Number v 0 → Limit (some v) []
  | negative {n rest} : (∀ c, rest.head? = some c → isDigit c = false) → Limit (some ('-' :: natStr n ++ rest)) []
  | text {v} : (∀ c, v.head? = some c → isSpace c = false ∧ isDigit c = false ∧ c ≠ '+' ∧ c ≠ '-') → Limit (some v) []

/-- What a soft limit in bytes limits to. -/
def soft : Option Nat → List Int
  | none => []
  | some n => if n = 2 ^ 64 - 1 then [] else [((n / 1024 : Nat) : Int)]

def Least (r : Int) (l : List Int) : Prop := r ∈ l ∧ ∀ x ∈ l, r ≤ x

/-- Full property C279: total and used memory of the host are those of /proc/meminfo, and what is available is the least of the total and the limits. -/
def C279_statement : Prop := ∀ (p : Proc) (ls : List Line) (t f : Nat) (hostVar procVar : Option Str) (hl pl : List Int),
  p.meminfo = some (fileOf ls) → Says ls (c!"MemTotal") t → Says ls (c!"MemFree") f → Clear ls (c!"MemTotal") → Clear ls (c!"MemFree") →
  Limit (hostVar.bind p.env) hl → Limit (procVar.bind p.env) pl → (∀ n ∈ p.data, n < 2 ^ 64) → (∀ n ∈ p.addressSpace, n < 2 ^ 64) →
  hostTotal p = t ∧ hostUsed p = t - f ∧ Least (hostAvailable p hostVar) ((t : Int) :: hl) ∧
    Least (procAvailable p hostVar procVar) ((t : Int) :: (hl ++ pl ++ soft p.data ++ soft p.addressSpace))

/-- Full property C280: the memory that the process uses is the value of VmRSS, whatever the process is called. -/
def C280_statement : Prop := ∀ (p : Proc) (name : Str) (ls : List Line) (n : Nat),
  p.status = some (fileOf (⟨c!"Name", '\t' :: name⟩ :: ls)) → name.length < 16 → Says (⟨c!"Name", '\t' :: name⟩ :: ls) (c!"VmRSS") n → Clear ls (c!"VmRSS") → procUsed p = n

/-! ### Proofs -/

theorem text_no_nl {l : Line} (h : l.Ok) : '\n' ∉ l.text := by
  unfold Line.text
  simp only [List.mem_append, List.mem_cons, not_or]
  exact ⟨h.2.1, by decide, h.2.2.1⟩

theorem load_file : ∀ (ls : List Line), (∀ l ∈ ls, l.Ok) → loadLines (some (fileOf ls)) = ls.map Line.text
  | [], _ => rfl
  | l :: ls, h => by
    have hl := h l (by simp)
    have ih := load_file ls fun l hm => h l (by simp [hm])
    unfold loadLines at ih ⊢
    simp only at ih ⊢
    rw [fileOf, pieces_line _ _ _ _ _ (text_no_nl hl) (by have := hl.2.2.2; omega), List.map_cons, List.map_cons, ih, List.nil_append]
    congr 1
    rw [List.takeWhile_append_of_pos]
    · simp
    · intro c hc
      have : c ≠ '\n' := fun e => text_no_nl hl (e ▸ hc)
      simpa using this

theorem strtol_number {v : Str} {n : Nat} (h : Number v n) (hn : n < 2 ^ 63) : strtol v = n := by
  obtain ⟨gap, rest, rfl, hg, hr⟩ := h
  unfold strtol
  have h1 : ltrim (gap ++ natStr n ++ rest) = natStr n ++ rest := by
    rw [List.append_assoc, ltrim_append_spaces hg]
    refine ltrim_eq_self fun c hc => ?_
    cases hs : natStr n with
    | nil => exact absurd hs (natStr_ne_nil n)
    | cons x s =>
      rw [hs] at hc
      simp at hc
      subst hc
      exact isDigit_not_space (natStr_digits n _ (by rw [hs]; simp))
  rw [h1, splitSign_natStr]
  simp only [Bool.false_eq_true, if_false]
  rw [(takeWhile_all (natStr_digits n) rest hr).1, natStr_val]
  omega

theorem value_lines {ls : List Line} {key : Str} {n : Nat} (h : Says ls key n) (hc : Clear ls key) :
    nameValue (ls.map Line.text) (key ++ [':']) = some (n : Int) := by
  obtain ⟨hok, ⟨l, hf, hv⟩, hn⟩ := h
  clear hok
  unfold nameValue
  induction ls with
  | nil => simp at hf
  | cons a ls ih =>
    rw [List.find?_cons] at hf
    rw [List.map_cons, List.findSome?_cons]
    by_cases hk : a.key = key
    · simp only [hk, decide_true, Option.some.injEq] at hf
      subst hf
      have e : a.text = (key ++ [':']) ++ a.value := by unfold Line.text; rw [hk]; simp
      rw [e, split_start (by simp)]
      simp only [Option.map_some, List.drop_left, strtol_number hv hn]
    · simp only [hk, decide_false] at hf
      have hc' := hc a (by simp [hk])
      rw [split_none.2 hc']
      exact ih (fun b hb => hc b (by simp only [ne_eq, List.takeWhile_cons, hk, not_false_eq_true, decide_true, if_true, List.mem_cons]; exact Or.inr hb)) hf

theorem says_ne {ls : List Line} {key : Str} {n : Nat} (h : Says ls key n) : loadLines (some (fileOf ls)) ≠ [] := by
  rw [load_file ls h.ok]
  obtain ⟨l, hf, _⟩ := h.value
  intro e
  rw [List.map_eq_nil_iff] at e
  subst e
  simp at hf

theorem field_of {file : Option Str} {ls : List Line} {key : Str} {n : Nat} (hp : file = some (fileOf ls)) (h : Says ls key n) (hc : Clear ls key) :
    getField file (key ++ [':']) = .ok (n : Int) := by
  subst hp
  unfold getField getFields
  rw [if_neg (says_ne h), load_file ls h.ok]
  simp only [fieldsFrom, value_lines h hc]
  rfl

theorem env_least {p : Proc} {name : Option Str} {l r : List Int} {m : Int} (h : Limit (name.bind p.env) l) (hm : Least m r) : Least (envLimit p name m) (r ++ l) := by
  unfold envLimit
  generalize name.bind p.env = v at h
  have keep : ∀ {k : Int}, Least k r → Least k (r ++ []) := fun h => by simpa using h
  cases h with
  | unset => exact keep hm
  | number hv h0 hn =>
    rename_i v n
    simp only [strtol_number hv hn]
    rw [if_pos (by omega)]
    obtain ⟨h1, h2⟩ := hm
    refine ⟨?_, ?_⟩
    · rw [List.mem_append]
      by_cases hc : m ≤ (n : Int)
      · rw [Int.min_eq_right hc]; exact Or.inl h1
      · rw [Int.min_eq_left (by omega)]; right; simp
    · intro x hx
      rw [List.mem_append, List.mem_singleton] at hx
      rcases hx with hx | rfl
      · have := h2 x hx; omega
      · omega
  | zero hv =>
    simp only [strtol_number hv (by decide)]
    exact keep hm
  | negative hr =>
    rename_i n rest
    have : ¬ strtol ('-' :: natStr n ++ rest) > 0 := by
      unfold strtol
      rw [ltrim_eq_self (by intro c hc; simp at hc; subst hc; decide)]
      simp only [List.cons_append, splitSign, if_true]
      omega
    simp only [this, if_false]
    exact keep hm
  | text hv =>
    rename_i v
    have : strtol v = 0 := by
      unfold strtol
      rw [ltrim_eq_self (fun c hc => (hv c hc).1)]
      cases v with
      | nil => decide
      | cons c v =>
        obtain ⟨_, h2, h3, h4⟩ := hv c rfl
        have hs : splitSign (c :: v) = (false, c :: v) := by
          unfold splitSign
          split
          · rename_i e; exact absurd (List.cons.inj e).1 h4
          · rename_i e; exact absurd (List.cons.inj e).1 h3
          · rfl
        rw [hs]
        simp only [Bool.false_eq_true, if_false, List.takeWhile_cons, h2]
        decide
    simp only [this, gt_iff_lt, Int.lt_irrefl, if_false]
    exact keep hm

theorem rlimit_least {l : Option Nat} {r : List Int} {m : Int} (h : ∀ n ∈ l, n = 2 ^ 64 - 1 ∨ n < 2 ^ 63) (hm : Least m r) : Least (rlimit l m) (r ++ soft l) := by
  cases l with
  | none => simpa [rlimit, soft] using hm
  | some n =>
    unfold rlimit soft
    simp only
    rw [show infinity = 2 ^ 64 - 1 from rfl]
    by_cases hi : n = 2 ^ 64 - 1
    · rw [if_pos hi, if_pos hi]; simpa using hm
    · rw [if_neg hi, if_neg hi]
      have hn := (h n rfl).resolve_left hi
      have e : (signed n).tdiv 1024 = ((n / 1024 : Nat) : Int) := by
        have : signed n = (n : Int) := by unfold signed; omega
        rw [this]
        rfl
      rw [e]
      obtain ⟨h1, h2⟩ := hm
      refine ⟨?_, ?_⟩
      · rw [List.mem_append]
        by_cases hc : m ≤ ((n / 1024 : Nat) : Int)
        · rw [Int.min_eq_right hc]; exact Or.inl h1
        · rw [Int.min_eq_left (by omega)]; right; simp
      · intro x hx
        rw [List.mem_append, List.mem_singleton] at hx
        rcases hx with hx | rfl
        · have := h2 x hx; omega
        · omega

/-- What C279 says, for resource limits below 2^63 bytes (or none). -/
theorem C279_partial (p : Proc) (ls : List Line) (t f : Nat) (hostVar procVar : Option Str) (hl pl : List Int)
    (hp : p.meminfo = some (fileOf ls)) (ht : Says ls (c!"MemTotal") t) (hf : Says ls (c!"MemFree") f) (ct : Clear ls (c!"MemTotal")) (cf : Clear ls (c!"MemFree"))
    (hh : Limit (hostVar.bind p.env) hl) (hq : Limit (procVar.bind p.env) pl)
    (hd : ∀ n ∈ p.data, n = 2 ^ 64 - 1 ∨ n < 2 ^ 63) (ha : ∀ n ∈ p.addressSpace, n = 2 ^ 64 - 1 ∨ n < 2 ^ 63) :
    hostTotal p = t ∧ hostUsed p = t - f ∧ Least (hostAvailable p hostVar) ((t : Int) :: hl) ∧
      Least (procAvailable p hostVar procVar) ((t : Int) :: (hl ++ pl ++ soft p.data ++ soft p.addressSpace)) := by
  have h1 : hostTotal p = t := by
    have := field_of hp ht ct
    unfold hostTotal
    simp only [List.cons_append, List.nil_append] at this
    rw [this]
  have h2 : Least (hostAvailable p hostVar) ((t : Int) :: hl) := env_least (r := [(t : Int)]) hh (by rw [h1]; exact ⟨by simp, by simp⟩)
  refine ⟨h1, ?_, h2, ?_⟩
  · have e1 := value_lines ht ct
    have e2 := value_lines hf cf
    simp only [List.cons_append, List.nil_append] at e1 e2
    unfold hostUsed getFields
    rw [hp, if_neg (says_ne ht), load_file ls ht.ok]
    simp only [fieldsFrom, e1, e2]
    rfl
  · have h3 := rlimit_least ha (rlimit_least hd (env_least hq h2))
    simpa [procAvailable] using h3

/-- A machine with 16 GiB; the process is limited to 2^63 bytes of address space. -/
def demoLines : List Line := [⟨c!"MemTotal", c!"       16777216 kB"⟩, ⟨c!"MemFree", c!"  1048576 kB"⟩]

theorem demo_says : Says demoLines (c!"MemTotal") 16777216 ∧ Says demoLines (c!"MemFree") 1048576 ∧ Clear demoLines (c!"MemTotal") ∧ Clear demoLines (c!"MemFree") := by
  have ok : ∀ l ∈ demoLines, l.Ok := by
    intro l hl
    simp only [demoLines, List.mem_cons, List.not_mem_nil, or_false] at hl
    rcases hl with rfl | rfl <;> exact ⟨by decide, by decide, by decide, by decide⟩
  refine ⟨⟨ok, ⟨_, rfl, c!"       ", c!" kB", by decide +kernel, by decide, ?_⟩, by decide⟩, ⟨ok, ⟨_, rfl, c!"  ", c!" kB", by decide +kernel, by decide, ?_⟩, by decide⟩, ?_, ?_⟩
  · intro c hc; simp at hc; subst hc; decide
  · intro c hc; simp at hc; subst hc; decide
  · intro l hl; simp [demoLines] at hl
  · intro l hl
    have : l = ⟨c!"MemTotal", c!"       16777216 kB"⟩ := by
      simp [demoLines] at hl
      exact hl
    subst this
    rw [← split_isSome]
    decide +kernel

def demoEnv : Str → Option Str := fun n => if n = c!"HOST_LIMIT" then some (c!"8000000 KiB") else if n = c!"JUNK" then some (c!"lots") else none

def demoProc (a : Option Nat) : Proc := ⟨some (fileOf demoLines), none, demoEnv, some infinity, a⟩

/-- C279 is false of the code: a limit of 2^63 bytes and more counts as a negative one. -/
theorem C279_refuted : ¬ C279_statement ∧ ∀ (p : Proc) (n : Nat) (hostVar procVar : Option Str), p.addressSpace = some n → 2 ^ 63 ≤ n → n < 2 ^ 64 - 1 →
    procAvailable p hostVar procVar ≤ 0 := by
  constructor
  · intro h
    have := (h (demoProc (some (2 ^ 63))) demoLines _ _ none none [] [] rfl demo_says.1 demo_says.2.1 demo_says.2.2.1 demo_says.2.2.2 .unset .unset
      (by intro n hn; cases hn; decide) (by intro n hn; cases hn; decide)).2.2.2
    have e : procAvailable (demoProc (some (2 ^ 63))) none none = -9007199254740992 := by decide +kernel
    rw [e] at this
    have h1 := this.1
    simp [soft, demoProc, infinity] at h1
  · intro p n hostVar procVar hp h1 h2
    unfold procAvailable rlimit
    rw [hp]
    simp only
    rw [if_neg (by unfold infinity; omega)]
    have : (signed n).tdiv 1024 ≤ 0 := by
      have hs : signed n ≤ 0 := by unfold signed; omega
      have := Int.tdiv_nonneg (a := -signed n) (b := 1024) (by omega) (by omega)
      rw [Int.neg_tdiv] at this
      omega
    omega

/-- Nothing can be read: the errors. -/
theorem C279_unreadable (p : Proc) (hostVar procVar : Option Str) (hp : p.meminfo = none ∨ p.meminfo = some []) :
    hostTotal p = -1 ∧ hostUsed p = -1 ∧ hostAvailable p hostVar = -1 ∧ procAvailable p hostVar procVar ≤ -1 := by
  have hl : loadLines p.meminfo = [] := by rcases hp with h | h <;> rw [h] <;> rfl
  have h1 : hostTotal p = -1 := by unfold hostTotal getField getFields; rw [if_pos hl]; rfl
  have he : ∀ (name : Option Str) (m : Int), envLimit p name m ≤ m := by
    intro name m
    unfold envLimit
    split
    · exact Int.le_refl _
    · split <;> omega
  have hr : ∀ (l : Option Nat) (m : Int), rlimit l m ≤ m := by
    intro l m
    unfold rlimit
    split
    · exact Int.le_refl _
    · split <;> omega
  refine ⟨h1, ?_, ?_, ?_⟩
  · unfold hostUsed getFields; rw [if_pos hl]
  · unfold hostAvailable envLimit
    rw [h1]
    split
    · rfl
    · split <;> omega
  · have e1 := hr p.addressSpace (rlimit p.data (envLimit p procVar (hostAvailable p hostVar)))
    have e2 := hr p.data (envLimit p procVar (hostAvailable p hostVar))
    have e3 := he procVar (hostAvailable p hostVar)
    have e4 : hostAvailable p hostVar ≤ hostTotal p := he hostVar _
    unfold procAvailable
    omega

/-- What C280 says, for names without `VmRSS:`. -/
theorem C280_partial (p : Proc) (name : Str) (ls : List Line) (n : Nat) (hp : p.status = some (fileOf (⟨c!"Name", '\t' :: name⟩ :: ls)))
    (h : Says (⟨c!"Name", '\t' :: name⟩ :: ls) (c!"VmRSS") n) (hc : Clear ls (c!"VmRSS")) (hn : ¬ (c!"VmRSS:") <:+: name) : procUsed p = n := by
  have hc' : Clear (⟨c!"Name", '\t' :: name⟩ :: ls) (c!"VmRSS") := by
    intro l hl
    rw [List.takeWhile_cons] at hl
    simp only [ne_eq, show (c!"Name") ≠ c!"VmRSS" by decide, not_false_eq_true, decide_true, if_true, List.mem_cons] at hl
    rcases hl with rfl | hl
    · rw [← split_isSome]
      unfold Line.text
      have : (split ((c!"VmRSS") ++ [':']) ((c!"Name") ++ ':' :: '\t' :: name)).isSome = (split (c!"VmRSS:") name).isSome := by
        simp only [List.cons_append, List.nil_append, split, startsWith, Option.isSome_map]
        simp [split, startsWith]
      rw [this, split_isSome]
      exact hn
    · exact hc l hl
  have := field_of hp h hc'
  unfold procUsed
  simp only [List.cons_append, List.nil_append] at this
  rw [this]

def statusLines : List Line := [⟨c!"State", c!"\tR (running)"⟩, ⟨c!"VmRSS", c!"\t    5120 kB"⟩]

theorem status_says (name : Str) (h1 : '\n' ∉ name) (h2 : name.length < 16) : Says (⟨c!"Name", '\t' :: name⟩ :: statusLines) (c!"VmRSS") 5120 ∧ Clear statusLines (c!"VmRSS") := by
  refine ⟨⟨?_, ⟨_, rfl, c!"\t    ", c!" kB", by decide +kernel, by decide, ?_⟩, by decide⟩, ?_⟩
  · intro l hl
    simp only [statusLines, List.mem_cons, List.not_mem_nil, or_false] at hl
    rcases hl with rfl | rfl | rfl
    · refine ⟨show ':' ∉ c!"Name" by decide, show '\n' ∉ c!"Name" by decide, ?_, ?_⟩
      · simp [h1]
      · simp [Line.text]; omega
    · exact ⟨by decide, by decide, by decide, by decide⟩
    · exact ⟨by decide, by decide, by decide, by decide⟩
  · intro c hc; simp at hc; subst hc; decide
  · intro l hl
    have : l = ⟨c!"State", c!"\tR (running)"⟩ := by
      simp [statusLines] at hl
      exact hl
    subst this
    rw [← split_isSome]
    decide +kernel

/-- C280 is false of the code: a process that calls itself `VmRSS: 7`. -/
theorem C280_refuted : ¬ C280_statement := by
  intro h
  have hs := status_says (c!"VmRSS: 7") (by decide) (by decide)
  have := h ⟨none, some (fileOf (⟨c!"Name", '\t' :: (c!"VmRSS: 7")⟩ :: statusLines)), fun _ => none, none, none⟩ (c!"VmRSS: 7") statusLines 5120 rfl (by decide) hs.1 hs.2
  revert this
  decide +kernel

/-! ### Non-trivial cases -/

example : procUsed ⟨none, some (fileOf (⟨c!"Name", '\t' :: (c!"vital")⟩ :: statusLines)), fun _ => none, none, none⟩ = 5120 :=
  C280_partial _ (c!"vital") statusLines 5120 rfl (status_says _ (by decide) (by decide)).1 (status_says (c!"vital") (by decide) (by decide)).2
    (by rw [← split_isSome]; decide +kernel)

example : Limit (demoEnv (c!"HOST_LIMIT")) [8000000] ∧ Limit (demoEnv (c!"JUNK")) [] :=
  ⟨.number (n := 8000000) ⟨[], c!" KiB", (by decide +kernel), by simp, by intro c hc; simp at hc; subst hc; decide⟩ (by decide) (by decide),
    .text (by intro c hc; simp at hc; subst hc; decide)⟩

example : hostAvailable (demoProc (some 4096000000)) (some (c!"HOST_LIMIT")) = 8000000 ∧ procAvailable (demoProc (some 4096000000)) (some (c!"HOST_LIMIT")) (some (c!"JUNK")) = 4000000 ∧
    hostUsed (demoProc none) = 15728640 := by decide +kernel

example : description (demoProc (some 4096000000)) (some (c!"HOST_LIMIT")) none = c!"Host Total: 16777216 KiB, Host Available: 8000000 KiB, Process Available: 4000000 KiB" := by
  decide +kernel

end Vital.SysInfo.Lim
