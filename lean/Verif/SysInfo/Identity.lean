import Verif.SysInfo.Props3
/-
  The description of the processor: vital/kwiversys/SystemInformation.cxx (GetVendorString, GetVendorID, GetFamilyID, GetModelID, GetModelName,
  GetSteppingCode, GetProcessorCacheSize, GetCPUDescription, Linux branches); properties C282 and C283.

  The speed is the text of a float and the processor name a table (RetrieveClassicalCPUIdentity); both are parameters of the description.
-/
namespace Vital.SysInfo.Chip
open Vital Vital.Stream

inductive Maker where
  | amd | intel | nsc | umc | cyrix | nexgen | idt | rise | transmeta | sun | ibm | motorola | hp | unknown
  deriving DecidableEq

-- models: vital/kwiversys/SystemInformation.cxx:2180-2199 (FindManufacturer)
def maker (vendor family : Str) : Maker :=
  if vendor = c!"GenuineIntel" then .intel
  else if vendor = c!"UMC UMC UMC " then .umc
  else if vendor = c!"AuthenticAMD" then .amd
  else if vendor = c!"AMD ISBETTER" then .amd
  else if vendor = c!"CyrixInstead" then .cyrix
  else if vendor = c!"NexGenDriven" then .nexgen
  else if vendor = c!"CentaurHauls" then .idt
  else if vendor = c!"RiseRiseRise" then .rise
  else if vendor = c!"GenuineTMx86" then .transmeta
  else if vendor = c!"TransmetaCPU" then .transmeta
  else if vendor = c!"Geode By NSC" then .nsc
  else if vendor = c!"Sun" then .sun
  else if vendor = c!"IBM" then .ibm
  else if vendor = c!"Hewlett-Packard" then .hp
  else if vendor = c!"Motorola" then .motorola
  else if family.take 7 = c!"PA-RISC" then .hp
  else .unknown

-- models: vital/kwiversys/SystemInformation.cxx:1859-1894 (GetVendorID)
def makerName : Maker → Str
  | .intel => c!"Intel Corporation"
  | .amd => c!"Advanced Micro Devices"
  | .nsc => c!"National Semiconductor"
  | .cyrix => c!"Cyrix Corp., VIA Inc."
  | .nexgen => c!"NexGen Inc., Advanced Micro Devices"
  | .idt => c!"IDT\\Centaur, Via Inc."
  | .umc => c!"United Microelectronics Corp."
  | .rise => c!"Rise"
  | .transmeta => c!"Transmeta"
  | .sun => c!"Sun Microelectronics"
  | .ibm => c!"IBM"
  | .motorola => c!"Motorola"
  | .hp => c!"Hewlett-Packard"
  | .unknown => c!"Unknown Manufacturer"

structure Chip where
  vendor : Str
  make : Maker
  family : Int
  model : Int
  revision : Int
  modelName : Str
  cache : Int

/-- The size in one line, without the unit. -/
-- models: vital/kwiversys/SystemInformation.cxx:3333-3342
def cacheOf (v : Str) : Int :=
  if v = [] then 0
  else match split (c!" KB") v with
    | some (a, _) => atoi a
    | none => atoi v

-- models: vital/kwiversys/SystemInformation.cxx:3262-3345 (the rest of RetreiveInformationFromCpuInfoFile); the sizes of the caches add up to an int
def chipOf (b : Str) : Chip :=
  let fam1 := (extract (c!"cpu family") b).2
  let fam := if fam1 = [] then (extract (c!"CPU architecture") b).2 else fam1
  let vendor := (extract (c!"vendor_id") b).2
  let make := maker vendor fam
  let n := atoi fam
  let family := if n = 0 ∧ make = .hp then (if fam = c!"PA-RISC 1.1a" then 0x11a else if fam = c!"PA-RISC 2.0" then 0x200 else n) else n
  let rev1 := (extract (c!"stepping") b).2
  let rev := if rev1 = [] then (extract (c!"CPU revision") b).2 else rev1
  { vendor := vendor
    make := make
    family := family
    model := atoi (extract (c!"model") b).2
    revision := atoi rev
    modelName := (extract (c!"model name") b).2
    cache := cacheOf (extract (c!"cache size") b).2 + cacheOf (extract (c!"I-cache") b).2 + cacheOf (extract (c!"D-cache") b).2 }

/-- The chip that RunCPUCheck finds; the constructor's values when there is no file. -/
-- models: vital/kwiversys/SystemInformation.cxx:1558-1578, 3176-3197
def check (file : Option Str) : Except Fail Chip :=
  match cpuInfo file, file with
  | .error e, _ => .error e
  | .ok _, none => .ok ⟨[], .unknown, 0, 0, 0, [], 0⟩
  | .ok _, some f => .ok (chipOf ((buffer f).getD []))

-- models: vital/kwiversys/SystemInformation.cxx:1905-1932 (GetFamilyID, GetModelID, GetSteppingCode)
def familyId (c : Chip) : Str := intStr c.family
def modelId (c : Chip) : Str := intStr c.model
def steppingCode (c : Chip) : Str := intStr c.revision

/-- The loop that takes out blanks. -/
-- models: vital/kwiversys/SystemInformation.cxx:630-635
def collapseF : Nat → Str → Str
  | 0, s => s
  | f + 1, s => match split [' ', ' '] s with
    | none => s
    | some (a, m) => collapseF f (a ++ ' ' :: m.drop 2)

def collapse (s : Str) : Str := collapseF (s.length + 1) s

-- models: vital/kwiversys/SystemInformation.cxx:610-638 (GetCPUDescription)
def description (physical : Nat) (c : Chip) (speed processorName : Str) : Str :=
  collapse (natStr physical ++ (c!" core ") ++ (if c.modelName = [] then speed ++ (c!" MHz ") ++ c.vendor ++ (c!" ") ++ processorName else c.modelName))

/-! ### Specification -/

/-- Runs of blanks made one. -/
def squeeze : Str → Str
  | [] => []
  | c :: s => if c = ' ' ∧ s.head? = some ' ' then squeeze s else c :: squeeze s

/-- What an x86 machine says about its processor. -/
structure X86 (l : List (Option Field)) (vendor name : Str) (family model stepping cacheKB : Nat) : Prop where
  clear : ∀ w ∈ [c!"cpu family", c!"vendor_id", c!"model", c!"stepping", c!"model name", c!"cache size", c!"I-cache", c!"D-cache"], ClearTo l w
  vendor : valueOf l (c!"vendor_id") = vendor
  name : valueOf l (c!"model name") = name
  family : valueOf l (c!"cpu family") = natStr family ∧ family < 2 ^ 31
  model : valueOf l (c!"model") = natStr model ∧ model < 2 ^ 31
  stepping : valueOf l (c!"stepping") = natStr stepping ∧ stepping < 2 ^ 31
  cache : valueOf l (c!"cache size") = natStr cacheKB ++ (c!" KB") ∧ cacheKB < 2 ^ 31
  noOther : valueOf l (c!"I-cache") = [] ∧ valueOf l (c!"D-cache") = []

/-- What an ARM machine says: neither `cpu family` nor `vendor_id` nor `stepping`. -/
structure Arm (l : List (Option Field)) (name : Str) (architecture revision : Nat) : Prop where
  clear : ∀ w ∈ [c!"cpu family", c!"CPU architecture", c!"vendor_id", c!"model", c!"stepping", c!"CPU revision", c!"model name", c!"cache size", c!"I-cache", c!"D-cache"], ClearTo l w
  absent : ∀ w ∈ [c!"cpu family", c!"vendor_id", c!"model", c!"stepping", c!"cache size", c!"I-cache", c!"D-cache"], valueOf l w = []
  architecture : valueOf l (c!"CPU architecture") = natStr architecture ∧ architecture < 2 ^ 31
  revision : valueOf l (c!"CPU revision") = natStr revision ∧ revision < 2 ^ 31
  name : valueOf l (c!"model name") = name

/-- What a PA-RISC machine says; `more` follows the size of its data cache. -/
structure PaRisc (l : List (Option Field)) (family name more : Str) (instructionKB dataKB : Nat) : Prop where
  clear : ∀ w ∈ [c!"cpu family", c!"CPU architecture", c!"vendor_id", c!"model", c!"stepping", c!"CPU revision", c!"model name", c!"cache size", c!"I-cache", c!"D-cache"], ClearTo l w
  absent : ∀ w ∈ [c!"vendor_id", c!"stepping", c!"CPU revision", c!"cache size"], valueOf l w = []
  family : valueOf l (c!"cpu family") = family
  name : valueOf l (c!"model name") = name
  caches : valueOf l (c!"I-cache") = natStr instructionKB ++ (c!" KB") ∧ valueOf l (c!"D-cache") = natStr dataKB ++ (c!" KB") ++ more
  fit : instructionKB < 2 ^ 31 ∧ dataKB < 2 ^ 31

/-- Names of makers that are known. -/
def makers : List (Str × Str) :=
  [(c!"GenuineIntel", c!"Intel Corporation"), (c!"AuthenticAMD", c!"Advanced Micro Devices"), (c!"CentaurHauls", c!"IDT\\Centaur, Via Inc."),
   (c!"CyrixInstead", c!"Cyrix Corp., VIA Inc."), (c!"GenuineTMx86", c!"Transmeta"), (c!"TransmetaCPU", c!"Transmeta"), (c!"Geode By NSC", c!"National Semiconductor"),
   (c!"NexGenDriven", c!"NexGen Inc., Advanced Micro Devices"), (c!"RiseRiseRise", c!"Rise"), (c!"UMC UMC UMC ", c!"United Microelectronics Corp."),
   (c!"AMD ISBETTER", c!"Advanced Micro Devices"), (c!"Sun", c!"Sun Microelectronics"), (c!"IBM", c!"IBM"), (c!"Hewlett-Packard", c!"Hewlett-Packard"), (c!"Motorola", c!"Motorola")]

/-! ### C282 -/

theorem squeeze_pair : ∀ (a t : Str), squeeze (a ++ ' ' :: ' ' :: t) = squeeze (a ++ ' ' :: t)
  | [], t => by rw [List.nil_append, squeeze, if_pos ⟨rfl, rfl⟩, List.nil_append]
  | c :: a, t => by
    rw [List.cons_append, List.cons_append, squeeze, squeeze, squeeze_pair a t]
    have : (a ++ ' ' :: ' ' :: t).head? = (a ++ ' ' :: t).head? := by cases a <;> rfl
    rw [this]

theorem squeeze_id : ∀ (s : Str), ¬ [' ', ' '] <:+: s → squeeze s = s
  | [], _ => rfl
  | c :: s, h => by
    rw [List.infix_cons_iff] at h
    rw [squeeze, if_neg, squeeze_id s (fun hs => h (Or.inr hs))]
    rintro ⟨rfl, hc⟩
    cases s with
    | nil => cases hc
    | cons d s =>
      cases hc
      exact h (Or.inl ⟨s, rfl⟩)

theorem squeeze_no_pair : ∀ (s : Str), ¬ [' ', ' '] <:+: squeeze s ∧ (squeeze s).head? = s.head?
  | [] => by simp [squeeze]
  | c :: s => by
    obtain ⟨h1, h2⟩ := squeeze_no_pair s
    rw [squeeze]
    split
    · rename_i hc
      exact ⟨h1, by rw [h2, hc.2, hc.1]; rfl⟩
    · rename_i hc
      refine ⟨?_, rfl⟩
      rw [List.infix_cons_iff, not_or]
      refine ⟨?_, h1⟩
      rintro ⟨t, ht⟩
      simp only [List.cons_append, List.nil_append, List.cons.injEq] at ht
      refine hc ⟨ht.1.symm, ?_⟩
      rw [← h2, ← ht.2]
      rfl

theorem collapseF_eq : ∀ (f : Nat) (s : Str), s.length < f → collapseF f s = squeeze s
  | 0, _, h => absurd h (Nat.not_lt_zero _)
  | f + 1, s, h => by
    rw [collapseF]
    cases hs : split [' ', ' '] s with
    | none =>
      simp only
      exact (squeeze_id s (split_none.1 hs)).symm
    | some r =>
      obtain ⟨a, m⟩ := r
      obtain ⟨h1, t, h2⟩ := split_some hs
      subst h1
      simp only
      rw [← h2]
      simp only [List.cons_append, List.nil_append, List.drop_succ_cons, List.drop_zero]
      rw [squeeze_pair]
      apply collapseF_eq f
      rw [← h2] at h
      simp at h ⊢
      omega

theorem squeeze_words : ∀ (s : Str), (squeeze s).filter (· != ' ') = s.filter (· != ' ')
  | [] => rfl
  | c :: s => by
    rw [squeeze]
    split
    · rename_i h
      rw [squeeze_words s, h.1]
      simp
    · rw [List.filter_cons, List.filter_cons, squeeze_words s]

/-- C282: the loop ends for every text; the description is the text with runs of blanks made one, so that no two blanks are adjacent and nothing else is lost. -/
theorem C282_description (physical : Nat) (c : Chip) (speed processorName : Str) :
    ∃ t, t = natStr physical ++ (c!" core ") ++ (if c.modelName = [] then speed ++ (c!" MHz ") ++ c.vendor ++ (c!" ") ++ processorName else c.modelName) ∧
      description physical c speed processorName = squeeze t ∧ ¬ (c!"  ") <:+: description physical c speed processorName ∧
      (description physical c speed processorName).filter (· != ' ') = t.filter (· != ' ') := by
  have e : ∀ t, collapse t = squeeze t := fun t => collapseF_eq _ t (Nat.lt_succ_self _)
  refine ⟨_, rfl, e _, ?_, ?_⟩
  · unfold description; rw [e]; exact (squeeze_no_pair _).1
  · unfold description; rw [e]; exact squeeze_words _

/-! ### C283 -/

theorem word_ok {w : Str} (h1 : w ≠ []) (h2 : ':' ∉ w) (h3 : '\n' ∉ w) (h4 : noTrailB w = true) : Word w := ⟨h1, h2, h3, noTrailB_sound h4⟩

theorem cache_kb {n : Nat} {more : Str} (hn : n < 2 ^ 31) : cacheOf (natStr n ++ (c!" KB") ++ more) = n := by
  unfold cacheOf
  rw [if_neg (by simp)]
  have : ∀ (d : Str), (∀ c ∈ d, isDigit c = true) → split (c!" KB") (d ++ (c!" KB") ++ more) = some (d, (c!" KB") ++ more) := by
    intro d
    induction d with
    | nil => intro _; exact split_start (by decide)
    | cons c d ih =>
      intro hd
      rw [List.cons_append, List.cons_append, split, if_neg, ih fun x hx => hd x (by simp [hx])]
      · rfl
      · have hc := hd c (by simp)
        intro hs
        simp only [startsWith] at hs
        simp at hs
        have := hs.1
        subst this
        revert hc
        decide
  rw [this _ (natStr_digits n)]
  exact atoi_nat hn

theorem chip_of {l : List (Option Field)} {vendor name : Str} {family model stepping cacheKB : Nat} (h : X86 l vendor name family model stepping cacheKB) :
    chipOf (text l) = ⟨vendor, maker vendor (natStr family), family, model, stepping, name, cacheKB⟩ := by
  have ex : ∀ w ∈ [c!"cpu family", c!"vendor_id", c!"model", c!"stepping", c!"model name", c!"cache size", c!"I-cache", c!"D-cache"],
      (extract w (text l)).2 = valueOf l w := by
    intro w hw
    refine C218_partial l w ?_ (h.clear w hw)
    revert w
    simp only [List.forall_mem_cons, List.not_mem_nil, false_imp_iff, implies_true, and_true]
    refine ⟨?_, ?_, ?_, ?_, ?_, ?_, ?_, ?_⟩ <;> exact word_ok (by decide) (by decide) (by decide) (by decide)
  simp only [List.forall_mem_cons, List.not_mem_nil, false_imp_iff, implies_true, and_true] at ex
  obtain ⟨e1, e2, e3, e4, e5, e6, e7, e8⟩ := ex
  have a0 : ∀ n : Nat, natStr n ≠ [] := natStr_ne_nil
  have hfam : ∀ n : Nat, natStr n ≠ c!"PA-RISC 1.1a" ∧ natStr n ≠ c!"PA-RISC 2.0" := by
    intro n
    constructor <;> intro e <;> have := natStr_digits n 'P' (by rw [e]; decide) <;> revert this <;> decide
  have hcache := cache_kb (more := []) h.cache.2
  rw [List.append_nil] at hcache
  unfold chipOf
  simp only [e1, e2, e3, e4, e5, e6, e7, e8, h.vendor, h.name, h.family.1, h.model.1, h.stepping.1, h.cache.1, h.noOther.1, h.noOther.2, if_neg (a0 _),
    atoi_nat h.family.2, atoi_nat h.model.2, atoi_nat h.stepping.2, hcache, if_neg (hfam _).1, if_neg (hfam _).2]
  simp [cacheOf]

/-- C283: vendor, family, model, stepping, model name and cache size are those in /proc/cpuinfo. -/
theorem C283_identity (l : List (Option Field)) (vendor name : Str) (family model stepping cacheKB : Nat) (h : X86 l vendor name family model stepping cacheKB)
    (c : Chip) (hc : check (some (cpuFile l)) = .ok c) :
    c.vendor = vendor ∧ c.modelName = name ∧ familyId c = natStr family ∧ modelId c = natStr model ∧ steppingCode c = natStr stepping ∧ c.cache = cacheKB := by
  have e : c = chipOf (text l) := by
    unfold check at hc
    split at hc
    · cases hc
    · rename_i hf; cases hf
    · rename_i f hf
      cases hf
      cases hc
      rw [buffer_file]
      rfl
  have e2 : c = ⟨vendor, maker vendor (natStr family), family, model, stepping, name, cacheKB⟩ := by
    rw [e]
    exact chip_of h
  subst e2
  have hi : ∀ n : Nat, intStr (n : Int) = natStr n := by
    intro n
    unfold intStr
    rw [if_neg (by omega)]
    rfl
  exact ⟨rfl, rfl, hi _, hi _, hi _, rfl⟩

/-- The fields in terms of the file. -/
theorem chip_values {l : List (Option Field)} (h : ∀ w ∈ [c!"cpu family", c!"CPU architecture", c!"vendor_id", c!"model", c!"stepping", c!"CPU revision",
    c!"model name", c!"cache size", c!"I-cache", c!"D-cache"], ClearTo l w) :
    ∀ w ∈ [c!"cpu family", c!"CPU architecture", c!"vendor_id", c!"model", c!"stepping", c!"CPU revision", c!"model name", c!"cache size", c!"I-cache", c!"D-cache"],
      (extract w (text l)).2 = valueOf l w := by
  intro w hw
  refine C218_partial l w ?_ (h w hw)
  revert w
  simp only [List.forall_mem_cons, List.not_mem_nil, false_imp_iff, implies_true, and_true]
  refine ⟨?_, ?_, ?_, ?_, ?_, ?_, ?_, ?_, ?_, ?_⟩ <;> exact word_ok (by decide) (by decide) (by decide) (by decide)

theorem check_chip {l : List (Option Field)} {c : Chip} (hc : check (some (cpuFile l)) = .ok c) : c = chipOf (text l) := by
  unfold check at hc
  split at hc
  · cases hc
  · rename_i hf; cases hf
  · rename_i f hf
    cases hf
    cases hc
    rw [buffer_file]
    rfl

theorem intStr_nat (n : Nat) : intStr (n : Int) = natStr n := by
  unfold intStr
  rw [if_neg (by omega)]
  rfl

/-- C283 for ARM: the architecture is the family and the CPU revision the stepping. -/
theorem C283_arm (l : List (Option Field)) (name : Str) (architecture revision : Nat) (h : Arm l name architecture revision)
    (c : Chip) (hc : check (some (cpuFile l)) = .ok c) :
    c.vendor = [] ∧ makerName c.make = (c!"Unknown Manufacturer") ∧ c.modelName = name ∧ familyId c = natStr architecture ∧ modelId c = c!"0" ∧
      steppingCode c = natStr revision ∧ c.cache = 0 := by
  have ex := chip_values h.clear
  have ab := h.absent
  simp only [List.forall_mem_cons, List.not_mem_nil, false_imp_iff, implies_true, and_true] at ex ab
  obtain ⟨e1, e2, e3, e4, e5, e6, e7, e8, e9, e10⟩ := ex
  obtain ⟨b1, b2, b3, b4, b5, b6, b7⟩ := ab
  have hm : maker [] (natStr architecture) = .unknown := by
    have hp : ¬ (natStr architecture).take 7 = c!"PA-RISC" := by
      intro e
      have hm : 'P' ∈ natStr architecture := List.mem_of_mem_take (by rw [e]; decide)
      have := natStr_digits architecture 'P' hm
      revert this
      decide
    unfold maker
    rw [if_neg hp]
    rfl
  have e : chipOf (text l) = ⟨[], .unknown, architecture, 0, revision, name, 0⟩ := by
    unfold chipOf
    simp only [e1, e2, e3, e4, e5, e6, e7, e8, e9, e10, b1, b2, b3, b4, b5, b6, b7, h.name, h.architecture.1, h.revision.1, if_true, hm,
      atoi_nat h.architecture.2, atoi_nat h.revision.2]
    have ha : atoi [] = 0 := by decide
    simp [cacheOf, ha]
  rw [check_chip hc, e]
  exact ⟨rfl, rfl, rfl, intStr_nat _, intStr_nat 0, intStr_nat _, rfl⟩

/-- C283 for PA-RISC: the family is the number of the architecture, and the cache size that of both caches. -/
theorem C283_parisc (l : List (Option Field)) (family name more : Str) (instructionKB dataKB : Nat) (h : PaRisc l family name more instructionKB dataKB)
    (c : Chip) (hc : check (some (cpuFile l)) = .ok c) :
    (family = (c!"PA-RISC 1.1a") → familyId c = c!"282") ∧ (family = (c!"PA-RISC 2.0") → familyId c = c!"512") ∧
      ((c!"PA-RISC") <+: family → makerName c.make = c!"Hewlett-Packard") ∧ c.modelName = name ∧ c.cache = instructionKB + dataKB := by
  have ex := chip_values h.clear
  have ab := h.absent
  simp only [List.forall_mem_cons, List.not_mem_nil, false_imp_iff, implies_true, and_true] at ex ab
  obtain ⟨e1, e2, e3, e4, e5, e6, e7, e8, e9, e10⟩ := ex
  obtain ⟨b1, b2, b3, b4⟩ := ab
  have hk : cacheOf [] = 0 := by simp [cacheOf]
  have hi := cache_kb (more := []) h.fit.1
  rw [List.append_nil] at hi
  have e := check_chip hc
  subst e
  have hmake : (c!"PA-RISC") <+: family → (chipOf (text l)).make = .hp := by
    intro hp
    unfold chipOf
    have hf : family ≠ [] := by obtain ⟨r, rfl⟩ := hp; simp
    simp only [e1, e3, h.family, if_neg hf, b1]
    obtain ⟨r, rfl⟩ := hp
    have ht : ((c!"PA-RISC") ++ r).take 7 = c!"PA-RISC" := List.take_left' (by rfl)
    unfold maker
    rw [if_pos ht]
    rfl
  refine ⟨?_, ?_, fun hp => by rw [hmake hp]; rfl, ?_, ?_⟩
  · rintro rfl
    unfold familyId chipOf
    have hf : (c!"PA-RISC 1.1a") ≠ [] := by decide
    simp only [e1, e3, h.family, if_neg hf, b1]
    decide +kernel
  · rintro rfl
    unfold familyId chipOf
    have hf : (c!"PA-RISC 2.0") ≠ [] := by decide
    simp only [e1, e3, h.family, if_neg hf, b1]
    decide +kernel
  · unfold chipOf
    simp only [e7, h.name]
  · unfold chipOf
    simp only [e8, e9, e10, b4, h.caches.1, h.caches.2, hk, hi, cache_kb h.fit.2]
    omega

/-- C283: without a file there is no processor of which anything is known. -/
theorem C283_unreadable (c : Chip) (hc : check none = .ok c) :
    c.vendor = [] ∧ makerName c.make = (c!"Unknown Manufacturer") ∧ c.modelName = [] ∧ familyId c = (c!"0") ∧ modelId c = (c!"0") ∧ steppingCode c = (c!"0") ∧ c.cache = 0 := by
  unfold check at hc
  split at hc
  · cases hc
  · cases hc; decide
  · rename_i hf; cases hf

/-- C283: the vendor ids of x86 processors have the names of their makers, and no others are called known. -/
theorem C283_makers (vendor : Str) (family : Nat) :
    (∀ n, (vendor, n) ∈ makers → makerName (maker vendor (natStr family)) = n) ∧
    ((∀ n, (vendor, n) ∉ makers) → makerName (maker vendor (natStr family)) = c!"Unknown Manufacturer") := by
  have hp : ¬ (natStr family).take 7 = c!"PA-RISC" := by
    intro e
    have hm : 'P' ∈ natStr family := List.mem_of_mem_take (by rw [e]; decide)
    have := natStr_digits family 'P' hm
    revert this
    decide
  constructor
  · intro n hn
    simp only [makers, List.mem_cons, Prod.mk.injEq, List.not_mem_nil, or_false] at hn
    rcases hn with ⟨rfl, rfl⟩ | ⟨rfl, rfl⟩ | ⟨rfl, rfl⟩ | ⟨rfl, rfl⟩ | ⟨rfl, rfl⟩ | ⟨rfl, rfl⟩ | ⟨rfl, rfl⟩ | ⟨rfl, rfl⟩ | ⟨rfl, rfl⟩ | ⟨rfl, rfl⟩ | ⟨rfl, rfl⟩ | ⟨rfl, rfl⟩ | ⟨rfl, rfl⟩ |
      ⟨rfl, rfl⟩ | ⟨rfl, rfl⟩ <;> rfl
  · intro hn
    have h2 : ∀ v n, (v, n) ∈ makers → ¬ vendor = v := fun v n hm e => hn n (e ▸ hm)
    unfold maker
    have k : ∀ v n, (v, n) ∈ makers → ∀ (a b : Maker), (if vendor = v then a else b) = b := fun v n hm a b => if_neg (h2 v n hm)
    rw [k (c!"GenuineIntel") (c!"Intel Corporation") (by decide), k (c!"UMC UMC UMC ") (c!"United Microelectronics Corp.") (by decide), k (c!"AuthenticAMD") (c!"Advanced Micro Devices") (by decide),
      k (c!"AMD ISBETTER") (c!"Advanced Micro Devices") (by decide), k (c!"CyrixInstead") (c!"Cyrix Corp., VIA Inc.") (by decide),
      k (c!"NexGenDriven") (c!"NexGen Inc., Advanced Micro Devices") (by decide), k (c!"CentaurHauls") (c!"IDT\\Centaur, Via Inc.") (by decide),
      k (c!"RiseRiseRise") (c!"Rise") (by decide), k (c!"GenuineTMx86") (c!"Transmeta") (by decide), k (c!"TransmetaCPU") (c!"Transmeta") (by decide),
      k (c!"Geode By NSC") (c!"National Semiconductor") (by decide), k (c!"Sun") (c!"Sun Microelectronics") (by decide), k (c!"IBM") (c!"IBM") (by decide),
      k (c!"Hewlett-Packard") (c!"Hewlett-Packard") (by decide), k (c!"Motorola") (c!"Motorola") (by decide), if_neg hp]
    rfl

/-! ### Non-trivial cases -/

def laptop : List (Option Field) :=
  [some ⟨c!"processor", c!"\t", c!" 0"⟩, some ⟨c!"vendor_id", c!"\t", c!" GenuineIntel"⟩, some ⟨c!"cpu family", c!"\t", c!" 6"⟩, some ⟨c!"model", c!"\t\t", c!" 158"⟩,
   some ⟨c!"model name", c!"\t", c!" Intel(R)  CPU   @ 3.60GHz"⟩, some ⟨c!"stepping", c!"\t", c!" 9"⟩, some ⟨c!"cache size", c!"\t", c!" 8192 KB"⟩, none]

theorem laptop_x86 : X86 laptop (c!"GenuineIntel") (c!"Intel(R)  CPU   @ 3.60GHz") 6 158 9 8192 where
  clear w hw := by
    apply clear_to
    apply clear_check
    revert w
    decide +kernel
  vendor := by decide +kernel
  name := by decide +kernel
  family := ⟨by decide +kernel, by decide⟩
  model := ⟨by decide +kernel, by decide⟩
  stepping := ⟨by decide +kernel, by decide⟩
  cache := ⟨by decide +kernel, by decide⟩
  noOther := ⟨by decide +kernel, by decide +kernel⟩

def phone : List (Option Field) :=
  [some ⟨c!"processor", c!"\t", c!" 0"⟩, some ⟨c!"model name", c!"\t", c!" ARMv7 Processor rev 4 (v7l)"⟩, some ⟨c!"CPU implementer", c!"\t", c!" 0x41"⟩,
   some ⟨c!"CPU architecture", c!"", c!" 7"⟩, some ⟨c!"CPU revision", c!"\t", c!" 4"⟩, none]

theorem phone_arm : Arm phone (c!"ARMv7 Processor rev 4 (v7l)") 7 4 where
  clear w hw := by
    apply clear_to
    apply clear_check
    revert w
    decide +kernel
  absent := by decide +kernel
  architecture := ⟨by decide +kernel, by decide⟩
  revision := ⟨by decide +kernel, by decide⟩
  name := by decide +kernel

def workstation : List (Option Field) :=
  [some ⟨c!"processor", c!"\t", c!" 0"⟩, some ⟨c!"cpu family", c!"\t", c!" PA-RISC 2.0"⟩, some ⟨c!"cpu", c!"\t\t", c!" PA8500 (PCX-W)"⟩, some ⟨c!"cpu MHz", c!"\t\t", c!" 440.000000"⟩,
   some ⟨c!"model", c!"\t\t", c!" 9000/785/C3600"⟩, some ⟨c!"model name", c!"\t", c!" Allegro W2"⟩, some ⟨c!"I-cache", c!"\t\t", c!" 512 KB"⟩,
   some ⟨c!"D-cache", c!"\t\t", c!" 1024 KB (WB, direct mapped)"⟩, none]

theorem workstation_parisc : PaRisc workstation (c!"PA-RISC 2.0") (c!"Allegro W2") (c!" (WB, direct mapped)") 512 1024 where
  clear w hw := by
    apply clear_to
    apply clear_check
    revert w
    decide +kernel
  absent := by decide +kernel
  family := by decide +kernel
  name := by decide +kernel
  caches := ⟨by decide +kernel, by decide +kernel⟩
  fit := by decide

example : (check (some (cpuFile phone))).toOption.isSome = true ∧ (check (some (cpuFile workstation))).toOption.isSome = true ∧ (check none).toOption.isSome = true := by
  decide +kernel

example : (check (some (cpuFile laptop))).toOption.map (fun c => (description 4 c [] [], makerName c.make)) = some (c!"4 core Intel(R) CPU @ 3.60GHz", c!"Intel Corporation") := by
  decide +kernel

end Vital.SysInfo.Chip
