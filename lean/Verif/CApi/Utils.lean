import Verif.Basic.Str
/-
  Model of the C binding helpers: vital/bindings/c/helpers/c_utils.{h,cxx}, common.cxx, error_handle.cxx.
  Properties C47, C48, C71, C72.
-/
namespace Vital.CApi
open Vital

/-! ### C strings and buffers -/

def nul : Char := Char.ofNat 0

-- models: strlen / the characters of a C string (up to the first NUL)
def cstr (s : Str) : Str := s.takeWhile (fun c => c != nul)

theorem cstr_self {s : Str} (hs : nul ∉ s) : cstr s = s := by
  unfold cstr
  induction s with
  | nil => rfl
  | cons a s ih =>
    have h1 : (a != nul) = true := by simp; rintro rfl; exact hs (by simp)
    rw [List.takeWhile_cons, h1]
    simp only [↓reduceIte]
    rw [ih (fun h => hs (by simp [h]))]

/-- A buffer obtained from `malloc(cap)`: the bytes from its start, `none` while indeterminate. -/
structure Buf where
  cap : Nat
  data : List (Option Char)
deriving DecidableEq

-- models: malloc
def malloc (n : Nat) : Buf := ⟨n, List.replicate n none⟩

-- models: strcpy(dst, src): writes the characters of src and a NUL; `none` = write past the end of dst
def strcpy (dst : Buf) (src : Str) : Option Buf :=
  let bytes := (cstr src ++ [nul]).map some
  if bytes.length ≤ dst.cap then some { dst with data := bytes ++ dst.data.drop bytes.length } else none

-- models: vital/bindings/c/error_handle.h (vital_error_handle_t)
structure EH where
  code : Int
  message : Option Buf

-- models: vital/bindings/c/error_handle.cxx:41-47 (vital_eh_new)
def ehNew : EH := ⟨0, none⟩

-- models: vital/bindings/c/helpers/c_utils.h:64-76 (POPULATE_EH); outer `none` = undefined behaviour,
-- a null handle pointer is `none` inside
def populateEH (eh : Option EH) (code : Int) (msg : Str) : Option (Option EH) :=
  match eh with
  | none => some none
  | some _ =>
    match strcpy (malloc (cstr msg).length) msg with
    | none => none
    | some b => some (some ⟨code, some b⟩)

/-- What was thrown inside a wrapped call. -/
inductive Thrown where
  | stdException (what : Str)
  | cString (s : Str)
  | other

-- models: vital/bindings/c/helpers/c_utils.h:95-120 (the message built by STANDARD_CATCH)
def message : Thrown → Str
  | .stdException w => c!"Caught exception in C interface: " ++ w
  | .cString s => c!"Caught error message: " ++ s
  | .other => c!"Caught other exception"

-- models: vital/bindings/c/helpers/c_utils.h:89-121 (STANDARD_CATCH around a call that threw)
def standardCatch (eh : Option EH) (t : Thrown) : Option (Option EH) := populateEH eh (-1) (message t)

/-- The C string held by a buffer, when it is terminated inside the buffer. -/
def holds (b : Buf) (s : Str) : Prop := ∃ rest, b.data = (s ++ [nul]).map some ++ rest ∧ b.data.length = b.cap

/-- Full property C48. -/
def C48_statement : Prop := ∀ (eh : EH) (t : Thrown), ∃ eh' b, standardCatch (some eh) t = some (some eh') ∧
  eh'.code = -1 ∧ eh'.message = some b ∧ holds b (cstr (message t))

/-- C48 is false of the code, for every message: the buffer is one byte too small for the terminating NUL,
    so every exception caught with a non-null handle writes past the allocation. -/
theorem C48_refuted : (∀ (eh : EH) (t : Thrown), standardCatch (some eh) t = none) ∧ ¬ C48_statement := by
  have main : ∀ (eh : EH) (t : Thrown), standardCatch (some eh) t = none := by
    intro eh t
    have : ¬ (cstr (message t)).length + 1 ≤ (cstr (message t)).length := by omega
    simp [standardCatch, populateEH, strcpy, malloc, this]
  refine ⟨main, fun h => ?_⟩
  obtain ⟨_, _, h1, _⟩ := h ehNew .other
  rw [main] at h1
  cases h1

/-- What holds: with a null handle nothing is written, and the write exceeds the buffer by exactly the
    terminating NUL (a buffer one byte larger would receive the whole message).
    Missing: any in-bounds report to a real handle. -/
theorem C48_partial (t : Thrown) : standardCatch none t = some none ∧
    ∃ b, strcpy (malloc ((cstr (message t)).length + 1)) (message t) = some b ∧ holds b (cstr (message t)) := by
  refine ⟨rfl, ⟨(cstr (message t)).length + 1, (cstr (message t) ++ [nul]).map some⟩, ?_, [], ?_, ?_⟩
  · simp [strcpy, malloc]
  · simp
  · simp

example : cstr (message (.stdException (c!"no"))) = c!"Caught exception in C interface: no" := by decide

/-! ### C71: string lists -/

-- models: vital/bindings/c/helpers/c_utils.cxx:42-52 (make_string_list)
def makeStringList : List Str → Option (List Buf)
  | [] => some []
  | s :: l =>
    match strcpy (malloc s.length) s with
    | none => none
    | some b =>
      match makeStringList l with
      | none => none
      | some bs => some (b :: bs)

/-- Full property: each string of the list is handed out as a terminated C string inside its buffer. -/
def C71_statement : Prop := ∀ l : List Str, ∃ bs, makeStringList l = some bs ∧ bs.length = l.length ∧
  ∀ (i : Nat) (s : Str) (b : Buf), l[i]? = some s → bs[i]? = some b → holds b (cstr s)

/-- C71 is false of the code: any string without embedded NUL is written one byte past its buffer. -/
theorem C71_refuted : (∀ l : List Str, (∃ s ∈ l, nul ∉ s) → makeStringList l = none) ∧ ¬ C71_statement := by
  have one : ∀ s : Str, nul ∉ s → strcpy (malloc s.length) s = none := by
    intro s hs
    have : cstr s = s := by
      exact cstr_self hs
    simp [strcpy, malloc, this]
  have main : ∀ l : List Str, (∃ s ∈ l, nul ∉ s) → makeStringList l = none := by
    intro l
    induction l with
    | nil => rintro ⟨s, hs, _⟩; simp at hs
    | cons a l ih =>
      rintro ⟨s, hs, hn⟩
      unfold makeStringList
      rcases List.mem_cons.1 hs with rfl | hs
      · rw [one s hn]
      · cases strcpy (malloc a.length) a with
        | none => rfl
        | some b => simp only [ih ⟨s, hs, hn⟩]
  refine ⟨main, fun h => ?_⟩
  obtain ⟨_, h1, _⟩ := h [c!"key"]
  rw [main _ ⟨c!"key", by simp, by decide⟩] at h1
  cases h1

/-- What holds: the empty list, and lists of strings with an embedded NUL (cut at the NUL). -/
theorem C71_partial : makeStringList [] = some [] ∧
    ∀ s : Str, nul ∈ s → ∃ b, makeStringList [s] = some [b] ∧ holds b (cstr s) := by
  refine ⟨rfl, fun s hs => ?_⟩
  have hlt : (cstr s).length + 1 ≤ s.length := by
    unfold cstr
    induction s with
    | nil => simp at hs
    | cons a s ih =>
      by_cases ha : a = nul
      · subst ha; simp
      · have : (a != nul) = true := by simp [ha]
        rw [List.takeWhile_cons, this]
        simp only [↓reduceIte, List.length_cons]
        have := ih (by rcases List.mem_cons.1 hs with h | h; exact absurd h.symm ha; exact h)
        omega
  refine ⟨⟨s.length, (cstr s ++ [nul]).map some ++ (List.replicate s.length none).drop ((cstr s).length + 1)⟩, ?_,
    _, rfl, ?_⟩
  · simp [makeStringList, strcpy, malloc, hlt]
  · simp; omega

example : nul ∈ (c!"a" ++ [nul] ++ c!"b") ∧ cstr (c!"a" ++ [nul] ++ c!"b") = c!"a" := by decide

/-! ### C72: vital_string_t -/

-- models: strncpy(dst, src, n): at most n characters, padded with NULs to n
def strncpyBytes (src : Str) (n : Nat) : Str := (cstr src).take n ++ List.replicate (n - (cstr src).length) nul

-- models: vital/bindings/c/common.cxx:43-58 (vital_string_new): the contents of str (malloc(length+1));
-- `src = none` is a null pointer, whose bytes stay indeterminate
def stringNew (length : Nat) (src : Option Str) : List (Option Char) :=
  match src with
  | some s => if length ≠ 0 then (strncpyBytes s length).map some ++ [some nul] else [some nul]
  | none => List.replicate length none ++ [some nul]

/-- `vital_string_new(s.length(), s.c_str())` fills its buffer of length+1 bytes exactly; it always holds a
    terminated C string equal to the original up to its first NUL, and the whole text when there is none. -/
theorem C72_string_new (s : Str) :
    (stringNew s.length (some s)).length = s.length + 1 ∧
    (stringNew s.length (some s)).getLast? = some (some nul) ∧
    (∃ rest, stringNew s.length (some s) = (cstr s ++ [nul]).map some ++ rest) ∧
    (nul ∉ s → stringNew s.length (some s) = (s ++ [nul]).map some) := by
  have hle : (cstr s).length ≤ s.length := (List.takeWhile_prefix _).length_le
  have htake : (cstr s).take s.length = cstr s := List.take_of_length_le hle
  have e : stringNew s.length (some s) = (cstr s ++ List.replicate (s.length - (cstr s).length) nul ++ [nul]).map some := by
    unfold stringNew strncpyBytes
    by_cases h0 : s.length = 0
    · have : s = [] := List.length_eq_zero_iff.1 h0
      subst this; rfl
    · simp [h0, htake]
  rw [e]
  refine ⟨by simp; omega, by simp, ?_, ?_⟩
  · cases hn : s.length - (cstr s).length with
    | zero => exact ⟨[], by simp⟩
    | succ n => exact ⟨(List.replicate n nul ++ [nul]).map some, by simp [List.replicate_succ]⟩
  · intro hs
    have : cstr s = s := by
      exact cstr_self hs
    rw [this]; simp

example : nul ∉ (c!"key:name") := by decide

/-! ### The shared-pointer cache -/

/-- A shared pointer: the raw pointer it owns (0 is NULL) and an identity that tells two shared pointers to
    the same object apart. -/
structure Sptr where
  ptr : Nat
  tag : Nat
deriving DecidableEq

-- models: vital/bindings/c/helpers/c_utils.h:251-262 (members cache_ and ref_count_cache_)
structure Cache where
  cache : OMap Nat Sptr
  count : OMap Nat Nat

inductive Err where
  | nullPointer
  | noEntry
deriving DecidableEq

-- models: vital/bindings/c/helpers/c_utils.h:169-173
def empty : Cache := ⟨[], []⟩

-- models: vital/bindings/c/helpers/c_utils.h:179-200 (store)
def store (c : Cache) (s : Sptr) : Cache × Except Err Unit :=
  if s.ptr = 0 then (c, .error .nullPointer)
  else if c.cache.contains s.ptr then
    (⟨c.cache, c.count.insert s.ptr ((c.count.find? s.ptr).getD 0 + 1)⟩, .ok ())
  else (⟨c.cache.insert s.ptr s, c.count.insert s.ptr 1⟩, .ok ())

-- models: vital/bindings/c/helpers/c_utils.h:203-222 (get)
def get (c : Cache) (p : Nat) : Except Err Sptr :=
  if p = 0 then .error .nullPointer
  else match c.cache.find? p with
    | some s => .ok s
    | none => .error .noEntry

/-- `size_t` decrement. -/
def dec (n : Nat) : Nat := if n = 0 then 2 ^ 64 - 1 else n - 1

-- models: vital/bindings/c/helpers/c_utils.h:231-250 (erase)
def erase (c : Cache) (p : Nat) : Cache × Except Err Unit :=
  if p = 0 then (c, .error .nullPointer)
  else match c.cache.find? p with
    | none => (c, .ok ())
    | some _ =>
      let n := dec ((c.count.find? p).getD 0)
      let count := c.count.insert p n
      if n = 0 then (⟨c.cache.erase p, count.erase p⟩, .ok ())
      else (⟨c.cache, count⟩, .ok ())

inductive Op where
  | store (s : Sptr)
  | erase (p : Nat)

def step (c : Cache) : Op → Cache
  | .store s => (store c s).1
  | .erase p => (erase c p).1

def run (ops : List Op) : Cache := ops.foldl step empty

/-- Specification: references held on `p` by a history (latest operation last): a store of a pointer to
    `p` adds one, an erase of `p` removes one if there is one. -/
def refs (p : Nat) : List Op → Nat → Nat
  | [], n => n
  | .store s :: l, n => refs p l (if s.ptr = p then n + 1 else n)
  | .erase q :: l, n => refs p l (if q = p then n - 1 else n)

/-- Specification: the shared pointer kept for `p` is the one whose store took the count from 0 to 1. -/
def kept (p : Nat) : List Op → Nat → Option Sptr → Option Sptr
  | [], _, k => k
  | .store s :: l, n, k => if s.ptr = p then kept p l (n + 1) (if n = 0 then some s else k) else kept p l n k
  | .erase q :: l, n, k => if q = p then kept p l (n - 1) (if n ≤ 1 then none else k) else kept p l n k

/-- The cache represents count `n` and kept pointer `k` for `p`. -/
def Rep (c : Cache) (p n : Nat) (k : Option Sptr) : Prop :=
  c.cache.find? p = k ∧ c.count.find? p = (if n = 0 then none else some n) ∧ (k.isSome ↔ n ≠ 0)

theorem rep_step {c : Cache} {p n : Nat} {k : Option Sptr} (hp : p ≠ 0) (h : Rep c p n k) (o : Op) :
    Rep (step c o) p (refs p [o] n) (kept p [o] n k) := by
  obtain ⟨h1, h2, h3⟩ := h
  cases o with
  | store s =>
    simp only [step, refs, kept]
    by_cases hs : s.ptr = p
    · subst hs
      simp only [↓reduceIte]
      unfold store
      rw [if_neg hp]
      by_cases hn : n = 0
      · subst hn
        have : k = none := by cases k with | none => rfl | some x => simp at h3
        subst this
        rw [if_neg (by simp [OMap.contains, h1])]
        refine ⟨?_, ?_, by simp⟩
        · simp [OMap.find?_insert]
        · simp [OMap.find?_insert]
      · rw [if_pos (by simp [OMap.contains, h1, h3, hn])]
        simp only [hn, ↓reduceIte] at h2 ⊢
        refine ⟨h1, ?_, by simp [h3, hn]⟩
        simp [OMap.find?_insert, h2]
    · rw [if_neg hs, if_neg hs]
      unfold store
      split
      · exact ⟨h1, h2, h3⟩
      · split
        · refine ⟨h1, ?_, h3⟩
          simp only [OMap.find?_insert]
          rw [if_neg (fun e => hs e.symm)]; exact h2
        · refine ⟨?_, ?_, h3⟩
          · simp only [OMap.find?_insert]; rw [if_neg (fun e => hs e.symm)]; exact h1
          · simp only [OMap.find?_insert]; rw [if_neg (fun e => hs e.symm)]; exact h2
  | erase q =>
    simp only [step, refs, kept]
    by_cases hq : q = p
    · subst hq
      simp only [↓reduceIte]
      unfold erase
      rw [if_neg hp]
      by_cases hn : n = 0
      · subst hn
        have : k = none := by cases k with | none => rfl | some x => simp at h3
        subst this
        rw [h1]
        exact ⟨h1, h2, by simp⟩
      · cases k with
        | none => simp at h3; exact absurd h3 hn
        | some x =>
          rw [h1]
          simp only [h2, hn, ↓reduceIte, Option.getD_some, dec]
          by_cases h1' : n = 1
          · subst h1'
            simp [Rep, OMap.find?_erase]
          · have : ¬ n - 1 = 0 := by omega
            rw [if_neg this, if_neg (by omega)]
            refine ⟨h1, ?_, by simp; omega⟩
            simp only [OMap.find?_insert, ↓reduceIte]
            rw [if_neg this]
    · rw [if_neg hq, if_neg hq]
      unfold erase
      split
      · exact ⟨h1, h2, h3⟩
      · split
        · exact ⟨h1, h2, h3⟩
        · simp only
          split
          · refine ⟨?_, ?_, h3⟩
            · simp only [OMap.find?_erase]; rw [if_neg (fun e => hq e.symm)]; exact h1
            · simp only [OMap.find?_erase, OMap.find?_insert]
              rw [if_neg (fun e => hq e.symm), if_neg (fun e => hq e.symm)]; exact h2
          · refine ⟨h1, ?_, h3⟩
            simp only [OMap.find?_insert]; rw [if_neg (fun e => hq e.symm)]; exact h2

theorem rep_run {p : Nat} (hp : p ≠ 0) : ∀ (ops : List Op) (c : Cache) (n : Nat) (k : Option Sptr), Rep c p n k →
    Rep (ops.foldl step c) p (refs p ops n) (kept p ops n k) := by
  intro ops
  induction ops with
  | nil => intro c n k h; exact h
  | cons o ops ih =>
    intro c n k h
    have h1 := rep_step hp h o
    have := ih _ _ _ h1
    simp only [List.foldl_cons]
    cases o with
    | store s =>
      simp only [refs, kept] at this ⊢
      by_cases hs : s.ptr = p
      · simp only [hs, ↓reduceIte] at this ⊢; exact this
      · simp only [hs, ↓reduceIte] at this ⊢; exact this
    | erase q =>
      simp only [refs, kept] at this ⊢
      by_cases hs : q = p
      · simp only [hs, ↓reduceIte] at this ⊢; exact this
      · simp only [hs, ↓reduceIte] at this ⊢; exact this

/-- After any history of store and erase calls, `get(p)` returns an object exactly when references to `p`
    remain, and then the shared pointer whose store began the current run of references; the object is
    therefore released exactly by the erase that balances the stores. -/
theorem C47_cache (ops : List Op) (p : Nat) (hp : p ≠ 0) :
    (∀ s, get (run ops) p = .ok s ↔ kept p ops 0 none = some s) ∧
    ((∃ s, get (run ops) p = .ok s) ↔ refs p ops 0 ≠ 0) ∧
    (refs p ops 0 = 0 → get (run ops) p = .error .noEntry) := by
  obtain ⟨h1, h2, h3⟩ := rep_run hp ops empty 0 none ⟨rfl, rfl, by simp⟩
  unfold get run
  rw [if_neg hp, h1]
  cases hk : kept p ops 0 none with
  | none =>
    rw [hk] at h3
    simp at h3 ⊢
    exact h3
  | some s =>
    rw [hk] at h3
    simp at h3 ⊢
    exact h3

/-- NULL is refused by all three operations and changes nothing; erase of an unknown pointer does nothing. -/
theorem C47_null (c : Cache) (s : Sptr) (p : Nat) :
    (s.ptr = 0 → store c s = (c, .error .nullPointer)) ∧ erase c 0 = (c, .error .nullPointer) ∧
    get c 0 = .error .nullPointer ∧ (p ≠ 0 → get c p = .error .noEntry → erase c p = (c, .ok ())) := by
  refine ⟨fun h => by simp [store, h], by simp [erase], by simp [get], ?_⟩
  intro hp hg
  unfold get at hg
  rw [if_neg hp] at hg
  unfold erase
  rw [if_neg hp]
  cases hf : c.cache.find? p with
  | none => rfl
  | some x => rw [hf] at hg; cases hg

/-- The number of references is the number of stores minus the number of erases as long as erases never
    outnumber stores. -/
theorem C47_balance (p : Nat) (ops : List Op) (n : Nat)
    (h : ∀ pre suf, ops = pre ++ suf → (pre.countP fun | .erase q => decide (q = p) | _ => false) ≤
      n + (pre.countP fun | .store s => decide (s.ptr = p) | _ => false)) :
    refs p ops n + (ops.countP fun | .erase q => decide (q = p) | _ => false) =
      n + (ops.countP fun | .store s => decide (s.ptr = p) | _ => false) := by
  induction ops generalizing n with
  | nil => simp [refs]
  | cons o ops ih =>
    cases o with
    | store s =>
      simp only [refs]
      by_cases hs : s.ptr = p
      · simp only [hs, ↓reduceIte, List.countP_cons, decide_true]
        have := ih (n + 1) (fun pre suf e => by
          have := h (.store s :: pre) suf (by rw [e]; rfl)
          simp only [List.countP_cons, hs, decide_true, ↓reduceIte, Bool.false_eq_true] at this
          omega)
        simp only [Bool.false_eq_true, ↓reduceIte]
        omega
      · simp only [hs, ↓reduceIte, List.countP_cons, decide_false]
        have := ih n (fun pre suf e => by
          have := h (.store s :: pre) suf (by rw [e]; rfl)
          simp only [List.countP_cons, hs, decide_false, ↓reduceIte, Bool.false_eq_true] at this
          omega)
        simp only [Bool.false_eq_true, ↓reduceIte]
        omega
    | erase q =>
      simp only [refs]
      by_cases hs : q = p
      · have h1 := h [.erase q] ops rfl
        simp [hs] at h1
        simp only [hs, ↓reduceIte, List.countP_cons, decide_true]
        have := ih (n - 1) (fun pre suf e => by
          have := h (.erase q :: pre) suf (by rw [e]; rfl)
          simp only [List.countP_cons, hs, decide_true, ↓reduceIte, Bool.false_eq_true] at this
          omega)
        simp only [Bool.false_eq_true, ↓reduceIte]
        omega
      · simp only [hs, ↓reduceIte, List.countP_cons, decide_false]
        have := ih n (fun pre suf e => by
          have := h (.erase q :: pre) suf (by rw [e]; rfl)
          simp only [List.countP_cons, hs, decide_false, ↓reduceIte, Bool.false_eq_true] at this
          omega)
        simp only [Bool.false_eq_true, ↓reduceIte]
        omega

def demoOps : List Op := [.store ⟨7, 1⟩, .store ⟨7, 2⟩, .erase 7, .store ⟨9, 3⟩, .erase 8, .erase 9]

example : get (run demoOps) 7 = .ok ⟨7, 1⟩ ∧ get (run demoOps) 9 = .error .noEntry ∧ refs 7 demoOps 0 = 1 ∧
    kept 7 demoOps 0 none = some ⟨7, 1⟩ := by decide +kernel

end Vital.CApi
