import Verif.Sys.PathsProps
/-
  `get_executable_path` and `get_module_path` (vital/util/get_paths.cxx over vital/util/whereami.c, Linux branch): C141.

  `realpath` is a parameter: `none` when it fails, else an absolute path shorter than PATH_MAX.
  Memory that was not written is `none`.
-/
namespace Vital.GetPaths
open Vital Vital.Sys

/-- `char ppath[4096]` -/
abbrev Buf := List (Option Char)

-- models: vital/util/get_paths.cxx:55, 76 (an array on the stack, not initialised)
def newBuf : Buf := List.replicate 4096 none

/-- Index of the last slash, counted down from `i`. -/
-- models: vital/util/whereami.c:173-183 (the loop over `out`)
def lastSlash (r : Str) : Nat → Option Nat
  | 0 => none
  | i + 1 => if r[i]? = some '/' then some i else lastSlash r i

-- models: vital/util/whereami.c:147-193 (wai_getExecutablePath): the buffer and `*dirname_length` afterwards; 4096 is `capacity`
def waiGet (resolved : Option Str) (out : Buf) (dirLen : Nat) : Buf × Nat :=
  match resolved with
  | none => (out, dirLen)
  | some r =>
    if r.length ≤ 4096 then
      let out' := r.map some ++ out.drop r.length
      (out', (lastSlash r r.length).getD dirLen)
    else (out, dirLen)

/-- `std::string( char const* )`: the characters before the first NUL; `none` when an uninitialised byte or the end is read first. -/
def cstr : Buf → Option Str
  | [] => none
  | none :: _ => none
  | some c :: b => if c = Char.ofNat 0 then some [] else (cstr b).map (c :: ·)

-- models: vital/util/get_paths.cxx:48-65 (get_executable_path): result and new cache; `none` = undefined behaviour
def getExecutablePath (resolved : Option Str) (cache : Str) : Option (Str × Str) :=
  if cache = [] then
    let (out, len) := waiGet resolved newBuf 0
    if len < 4096 then (cstr (out.set len (some (Char.ofNat 0)))).map (fun p => (p, p)) else none
  else some (cache, cache)

-- models: vital/util/get_paths.cxx:69-86 (get_module_path); `path[length] = '\0'` is an access to the empty string `path`, allowed only
-- for `length = 0`
def getModulePath (resolved : Option Str) (cache : Str) : Option (Str × Str) :=
  if cache = [] then
    let (out, len) := waiGet resolved newBuf 0
    if len = 0 then (cstr out).map (fun p => (p, p)) else none
  else some (cache, cache)

/-- What `realpath` returns: an absolute path without NUL that fits PATH_MAX. -/
structure RealPath (r : Str) : Prop where
  abs : r.head? = some '/'
  short : r.length < 4096
  clean : Char.ofNat 0 ∉ r

/-- Specification: `d` is the directory of the file `r`: the text before the last slash. -/
def IsDirOf (r d : Str) : Prop := ∃ f, r = d ++ c!"/" ++ f ∧ '/' ∉ f

theorem lastSlash_spec (r : Str) : ∀ i, i ≤ r.length → match lastSlash r i with
    | none => ∀ j < i, r[j]? ≠ some '/'
    | some k => k < i ∧ r[k]? = some '/' ∧ ∀ j, k < j → j < i → r[j]? ≠ some '/' := by
  intro i
  induction i with
  | zero => intro _; simp [lastSlash]
  | succ i ih =>
    intro hi
    have ih := ih (by omega)
    unfold lastSlash
    by_cases h : r[i]? = some '/'
    · simp only [h, if_true]
      exact ⟨by omega, trivial, by intro j h1 h2; omega⟩
    · simp only [h, if_false]
      cases hl : lastSlash r i with
      | none =>
        rw [hl] at ih
        simp only at ih ⊢
        intro j hj
        by_cases e : j = i
        · rw [e]; exact h
        · exact ih j (by omega)
      | some k =>
        rw [hl] at ih
        simp only at ih ⊢
        refine ⟨by omega, ih.2.1, ?_⟩
        intro j h1 h2
        by_cases e : j = i
        · rw [e]; exact h
        · exact ih.2.2 j h1 (by omega)

theorem cstr_of (d : Str) (hd : Char.ofNat 0 ∉ d) (rest : Buf) : cstr (d.map some ++ some (Char.ofNat 0) :: rest) = some d := by
  induction d with
  | nil => simp [cstr]
  | cons c d ih =>
    simp only [List.mem_cons, not_or] at hd
    simp only [List.map_cons, List.cons_append, cstr, Ne.symm hd.1, if_false, ih hd.2, Option.map_some]

theorem dirOf_lastSlash {r : Str} (h : RealPath r) : ∃ k d, lastSlash r r.length = some k ∧ k < r.length ∧ d = r.take k ∧ IsDirOf r d := by
  have hs := lastSlash_spec r r.length (Nat.le_refl _)
  cases hl : lastSlash r r.length with
  | none =>
    rw [hl] at hs
    cases r with
    | nil => have := h.abs; simp at this
    | cons a r => have := h.abs; simp at this; subst this; exact absurd (by simp) (hs 0 (by simp))
  | some k =>
    rw [hl] at hs
    simp only at hs
    obtain ⟨h1, h2, h3⟩ := hs
    refine ⟨k, r.take k, rfl, h1, rfl, r.drop (k + 1), ?_, ?_⟩
    · have hg : r[k] = '/' := by rw [List.getElem?_eq_getElem h1] at h2; simpa using h2
      conv => lhs; rw [← List.take_append_drop k r]
      rw [List.drop_eq_getElem_cons h1, hg, List.append_assoc]
      rfl
    · intro hm
      obtain ⟨j, hj, e⟩ := List.getElem_of_mem hm
      rw [List.length_drop] at hj
      rw [List.getElem_drop] at e
      refine h3 (k + 1 + j) (by omega) (by omega) ?_
      rw [List.getElem?_eq_getElem (by omega), e]

/-- C141: `get_executable_path` returns the directory of the running program, and later calls return the same. -/
theorem C141_executable_path (r : Str) (h : RealPath r) :
    ∃ d, IsDirOf r d ∧ getExecutablePath (some r) [] = some (d, d) ∧ (d ≠ [] → ∀ r', getExecutablePath r' d = some (d, d)) := by
  obtain ⟨k, d, h1, h2, h3, h4⟩ := dirOf_lastSlash h
  refine ⟨d, h4, ?_, ?_⟩
  · unfold getExecutablePath waiGet
    have hlen : r.length ≤ 4096 := by have := h.short; omega
    have hk : k < 4096 := by have := h.short; omega
    simp only [if_true, hlen, h1, Option.getD_some, hk]
    have e : (r.map some ++ newBuf.drop r.length).set k (some (Char.ofNat 0)) = d.map some ++ some (Char.ofNat 0) :: ((r.map some ++ newBuf.drop r.length).drop (k + 1)) := by
      rw [List.set_eq_take_append_cons_drop, if_pos (by simp; omega)]
      rw [List.take_append_of_le_length (by simp; omega), ← List.map_take, ← h3]
    rw [e, cstr_of d (by rw [h3]; exact fun hm => h.clean (List.mem_of_mem_take hm))]
    rfl
  · intro hd r'
    simp [getExecutablePath, hd]

/-- When the program's path cannot be found the result is empty and nothing is remembered. -/
theorem C141_executable_fails : getExecutablePath none [] = some ([], []) := by
  have : newBuf.set 0 (some (Char.ofNat 0)) = some (Char.ofNat 0) :: List.replicate 4095 none := rfl
  unfold getExecutablePath waiGet
  rw [if_pos rfl]
  simp only [show (0:Nat) < 4096 by omega, if_true, this]
  simp [cstr]

example : RealPath (c!"/usr/bin/tool") ∧ ∃ d, IsDirOf (c!"/usr/bin/tool") d ∧ d = c!"/usr/bin" :=
  ⟨⟨rfl, by decide, by decide⟩, c!"/usr/bin", ⟨c!"tool", rfl, by decide⟩, rfl⟩

/-- The corresponding statement about `get_module_path`. -/
def C142_statement : Prop := ∀ r : Str, RealPath r → ∃ d, IsDirOf r d ∧ getModulePath (some r) [] = some (d, d)

/-- It is false, and the first call is undefined behaviour whatever the path of the module is, also when it cannot be found. -/
theorem C142_always_undefined (resolved : Option Str) (h : ∀ r, resolved = some r → RealPath r) : getModulePath resolved [] = none := by
  unfold getModulePath waiGet
  rw [if_pos rfl]
  cases resolved with
  | none =>
    simp only [if_true]
    have : newBuf = none :: List.replicate 4095 none := rfl
    rw [this]; rfl
  | some r =>
    have hr := h r rfl
    obtain ⟨k, d, h1, h2, h3, h4⟩ := dirOf_lastSlash hr
    have hlen : r.length ≤ 4096 := by have := hr.short; omega
    simp only [hlen, if_true, h1, Option.getD_some]
    split
    · have hz : ∀ (s : Str) (n : Nat), Char.ofNat 0 ∉ s → cstr (s.map some ++ none :: List.replicate n none) = none := by
        intro s n
        induction s with
        | nil => intro _; rfl
        | cons c s ih =>
          intro hs
          simp only [List.mem_cons, not_or] at hs
          simp only [List.map_cons, List.cons_append, cstr, Ne.symm hs.1, if_false, ih hs.2, Option.map_none]
      have e : newBuf.drop r.length = none :: List.replicate (4096 - r.length - 1) none := by
        unfold newBuf
        rw [List.drop_replicate]
        have : 4096 - r.length = (4096 - r.length - 1) + 1 := by have := hr.short; omega
        rw [this, List.replicate_succ]
        simp
      rw [e, hz _ _ hr.clean]
      rfl
    · rfl

theorem C142_refuted : ¬ C142_statement := by
  intro h
  obtain ⟨d, _, hd⟩ := h (c!"/usr/lib/libx.so") ⟨rfl, by decide, by decide⟩
  rw [C142_always_undefined (some (c!"/usr/lib/libx.so")) (by rintro r ⟨⟩; exact ⟨rfl, by decide, by decide⟩)] at hd
  cases hd

end Vital.GetPaths
