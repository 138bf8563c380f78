import Verif.SysInfo.Props
/-
  Proofs of C217, C220 - C222 and concrete cases.
-/
namespace Vital.SysInfo
open Vital Vital.Stream

/-! ### Checks for concrete files -/

def noTrailB (s : Str) : Bool := match s.getLast? with
  | none => true
  | some c => !blank c

def okB (f : Field) : Bool := decide (':' ∉ f.key) && decide ('\n' ∉ f.key) && noTrailB f.key && f.pad.all blank && decide ('\n' ∉ f.value)

def clearB (w : Str) (f : Field) : Bool :=
  okB f && (split w f.value).isNone && (decide (f.key = w) || !(w.isSuffixOf f.key)) && (!decide (f.key = w) || decide (f.value ≠ []))

theorem noTrailB_sound {s : Str} (h : noTrailB s = true) : NoTrail s := by
  intro c hc
  unfold noTrailB at h
  rw [hc] at h
  simpa using h

theorem okB_sound {f : Field} (h : okB f = true) : f.Ok := by
  unfold okB at h
  simp only [Bool.and_eq_true, decide_eq_true_eq] at h
  obtain ⟨⟨⟨⟨h1, h2⟩, h3⟩, h4⟩, h5⟩ := h
  exact ⟨h1, h2, noTrailB_sound h3, List.all_eq_true.1 h4, h5⟩

theorem clearB_sound {w : Str} {f : Field} (h : clearB w f = true) : f.Clear w := by
  unfold clearB at h
  simp only [Bool.and_eq_true, Bool.or_eq_true, decide_eq_true_eq, Bool.not_eq_true', Option.isNone_iff_eq_none, decide_eq_false_iff_not] at h
  obtain ⟨⟨⟨h1, h2⟩, h3⟩, h4⟩ := h
  refine ⟨okB_sound h1, split_none.1 h2, fun hs => ?_, fun hk => ?_⟩
  · rcases h3 with h | h
    · exact h
    · rw [← List.isSuffixOf_iff_suffix, h] at hs
      cases hs
  · rcases h4 with h | h
    · exact absurd hk h
    · exact h

theorem clear_check {l : List (Option Field)} {w : Str} (h : (fields l).all (clearB w) = true) : Clear l w :=
  fun f hf => clearB_sound (List.all_eq_true.1 h f hf)

/-- One package with 8 cores, a single-socket machine. -/
def desktop : List (Option Field) :=
  [some ⟨c!"processor", c!"\t", c!" 0"⟩, some ⟨c!"vendor_id", c!"\t", c!" GenuineIntel"⟩, some ⟨c!"model name", c!"\t", c!" Some CPU"⟩,
   some ⟨c!"stepping", c!"\t", c!" 9"⟩, some ⟨c!"physical id", c!"\t", c!" 0"⟩, some ⟨c!"cpu cores", c!"\t", c!" 8"⟩,
   some ⟨c!"flags", c!"\t\t", c!" fpu tsc mmx sse sse2"⟩, some ⟨c!"power management", [], []⟩, none]

/-- Two packages with 12 cores each. -/
def server : List (Option Field) :=
  [some ⟨c!"processor", c!"\t", c!" 0"⟩, some ⟨c!"physical id", c!"\t", c!" 0"⟩, some ⟨c!"cpu cores", c!"\t", c!" 12"⟩, none,
   some ⟨c!"processor", c!"\t", c!" 1"⟩, some ⟨c!"physical id", c!"\t", c!" 1"⟩, some ⟨c!"cpu cores", c!"\t", c!" 12"⟩, none,
   some ⟨c!"processor", c!"\t", c!" 2"⟩, some ⟨c!"physical id", c!"\t", c!" 0"⟩, some ⟨c!"cpu cores", c!"\t", c!" 12"⟩, none]

theorem desktop_cores : Cores desktop 1 8 where
  clear w hw := by
    simp only [physWords, List.mem_cons, List.not_mem_nil, or_false] at hw
    rcases hw with rfl | rfl | rfl <;> exact clear_check (by decide +kernel)
  pos := by decide
  below f hf hk := by
    simp only [desktop, fields, List.filterMap_cons, List.filterMap_nil, id, List.mem_cons, List.not_mem_nil, or_false] at hf
    rcases hf with rfl | rfl | rfl | rfl | rfl | rfl | rfl | rfl <;> first | exact ⟨0, by decide, rfl⟩ | exact absurd hk (by decide)
  last := ⟨⟨c!"physical id", c!"\t", c!" 0"⟩, by decide +kernel, rfl, rfl⟩
  each := by decide +kernel

theorem server_cores : Cores server 2 12 where
  clear w hw := by
    simp only [physWords, List.mem_cons, List.not_mem_nil, or_false] at hw
    rcases hw with rfl | rfl | rfl <;> exact clear_check (by decide +kernel)
  pos := by decide
  below f hf hk := by
    simp only [server, fields, List.filterMap_cons, List.filterMap_nil, id, List.mem_cons, List.not_mem_nil, or_false] at hf
    rcases hf with rfl | rfl | rfl | rfl | rfl | rfl | rfl | rfl | rfl <;>
      first | exact ⟨0, by decide, rfl⟩ | exact ⟨1, by decide, rfl⟩ | exact absurd hk (by decide)
  last := ⟨⟨c!"physical id", c!"\t", c!" 1"⟩, by decide +kernel, rfl, rfl⟩
  each := by decide +kernel

/-- C220 is false of the code: machines with one package are said to have one CPU. -/
theorem C220_refuted : ¬ C220_statement ∧
    (∀ (l : List (Option Field)) (cores : Nat), Cores l 1 cores → (∀ f ∈ fields l, f.key ≠ c!"ncpus active") →
      ∃ c, cpuInfo (some (cpuFile l)) = .ok c ∧ c.physical = 1) ∧ Cores desktop 1 8 := by
  refine ⟨fun h => ?_, C220_single, desktop_cores⟩
  obtain ⟨c, h1, h2⟩ := h desktop 1 8 desktop_cores
  obtain ⟨c', h3, h4⟩ := C220_single desktop 8 desktop_cores (by decide +kernel)
  rw [h1] at h3
  cases h3
  omega

def procsB (f : Field) : Bool :=
  okB f && (split (c!"processor\t") f.value).isNone &&
    (if f.key = c!"processor" then decide (f.pad.head? = some '\t') else (split (c!"processor\t") (f.key ++ f.pad)).isNone)

theorem procs_check {l : List (Option Field)} (h : (fields l).all procsB = true) : Procs l := by
  intro f hf
  have := List.all_eq_true.1 h f hf
  unfold procsB at this
  simp only [Bool.and_eq_true, Option.isNone_iff_eq_none] at this
  obtain ⟨⟨h1, h2⟩, h3⟩ := this
  refine ⟨okB_sound h1, split_none.1 h2, fun hk => ?_, fun hk => ?_⟩
  · rw [if_pos hk] at h3
    cases hp : f.pad with
    | nil => rw [hp] at h3; simp at h3
    | cons x p => rw [hp] at h3; simp at h3; exact ⟨p, by rw [h3]⟩
  · rw [if_neg hk] at h3
    exact split_none.1 (by simpa using h3)

/-- Concrete cases for C218, C219 and C220. -/
example : (extract (c!"model name") (text desktop)).2 = c!"Some CPU" :=
  (C218_partial desktop _ ⟨by decide, by decide, by decide, by intro c hc; simp at hc; subst hc; decide⟩ (clear_to (clear_check (by decide +kernel)))).trans (by decide +kernel)
example : ∃ c, cpuInfo (some (cpuFile server)) = .ok c ∧ c.physical = 24 ∧ c.logical = 3 := by
  obtain ⟨c, h1, h2⟩ := C220_partial server 2 12 server_cores (by decide)
  exact ⟨c, h1, h2, (C219_logical server (procs_check (by decide +kernel)) c h1).trans (by decide +kernel)⟩

/-! ### C221: features -/

theorem padded_join : ∀ (ws : List Str), ws ≠ [] → ' ' :: joinWith [' '] ws ++ [' '] = ws.flatMap (fun w => ' ' :: w) ++ [' ']
  | [], h => absurd rfl h
  | [a], _ => by simp [joinWith]
  | a :: b :: l, _ => by
    have := padded_join (b :: l) (by simp)
    simp only [joinWith, List.flatMap_cons] at this ⊢
    simp only [List.cons_append, List.append_assoc, List.nil_append] at this ⊢
    rw [this]

theorem same_word {a b : Str} (ha : ' ' ∉ a) (hb : ' ' ∉ b) : ∀ {r s : Str}, a ++ ' ' :: r = b ++ ' ' :: s → a = b := by
  induction a generalizing b with
  | nil =>
    intro r s h
    cases b with
    | nil => rfl
    | cons x b => simp at h; simp [← h.1] at hb
  | cons y a ih =>
    intro r s h
    cases b with
    | nil => simp at h; simp [h.1] at ha
    | cons x b =>
      simp at h ha hb
      rw [h.1, ih ha.2 hb.2 h.2]

theorem past_word {x : Char} {w n : Str} (hw : x ∉ w) : ∀ {a b r : Str}, a ++ x :: n ++ b = w ++ r → x :: n <:+: r := by
  induction w with
  | nil => intro a b r h; exact ⟨a, b, by simpa using h⟩
  | cons y w ih =>
    intro a b r h
    simp only [List.mem_cons, not_or] at hw
    cases a with
    | nil => simp at h; exact absurd h.1 hw.1
    | cons z a => simp at h; exact ih hw.2 (a := a) (b := b) (by simpa using h.2)

theorem padded_mem {name : Str} (hn : ' ' ∉ name) : ∀ (ws : List Str), (∀ w ∈ ws, ' ' ∉ w) →
    (' ' :: name ++ [' '] <:+: ws.flatMap (fun w => ' ' :: w) ++ [' '] ↔ name ∈ ws)
  | [], _ => by
    simp only [List.flatMap_nil, List.nil_append, List.not_mem_nil, iff_false]
    rintro ⟨a, b, h⟩
    have := congrArg List.length h
    simp at this
    omega
  | w :: ws, hws => by
    have ih := padded_mem hn ws (fun w hw => hws w (by simp [hw]))
    obtain ⟨r, hr⟩ : ∃ r, ws.flatMap (fun w => ' ' :: w) ++ [' '] = ' ' :: r := by
      cases ws with
      | nil => exact ⟨[], rfl⟩
      | cons v ws => exact ⟨_, by rw [List.flatMap_cons, List.append_assoc, List.cons_append]⟩
    rw [List.flatMap_cons, List.append_assoc, List.mem_cons, ← ih, hr]
    constructor
    · rintro ⟨a, b, h⟩
      cases a with
      | nil =>
        left
        simp only [List.nil_append, List.cons_append, List.append_assoc, List.cons.injEq, true_and] at h
        exact same_word hn (hws w (by simp)) h
      | cons z a =>
        right
        simp only [List.cons_append, List.append_assoc, List.cons.injEq] at h
        exact past_word (hws w (by simp)) (a := a) (b := b) (n := name ++ [' ']) (by simpa using h.2)
    · rintro (rfl | h)
      · exact ⟨[], r, by simp⟩
      · exact h.trans ⟨' ' :: w, [], by simp⟩

theorem wStep : Word (c!"stepping") := ⟨by decide, by decide, by decide, by intro c hc; simp at hc; subst hc; decide⟩
theorem wRev : Word (c!"CPU revision") := ⟨by decide, by decide, by decide, by intro c hc; simp at hc; subst hc; decide⟩
theorem wFlags : Word (c!"flags") := ⟨by decide, by decide, by decide, by intro c hc; simp at hc; subst hc; decide⟩

theorem cpu_flags {l : List (Option Field)} {c : Cpu} (h : cpuInfo (some (cpuFile l)) = .ok c) : c.flags = flagText (text l) := by
  unfold cpuInfo at h
  simp only [buffer_file] at h
  split at h
  · cases h
  · cases h; rfl

theorem flag_text {l : List (Option Field)} {ws : List Str} (h : Flags l ws) :
    flagText (text l) = if valueOf l (c!"stepping") = [] ∧ valueOf l (c!"CPU revision") = [] then none else some (' ' :: joinWith [' '] ws ++ [' ']) := by
  unfold flagText
  rw [C218_partial l _ wStep (h.clear _ (by decide)), C218_partial l _ wRev (h.clear _ (by decide)), C218_partial l _ wFlags (h.clear _ (by decide)), h.value]
  dsimp only
  by_cases h1 : valueOf l (c!"stepping") = []
  · rw [if_pos h1]
    simp [h1]
  · rw [if_neg h1]
    simp [h1]

/-- C221 for files that have a stepping or a CPU revision. -/
theorem C221_partial (l : List (Option Field)) (ws : List Str) (c : Cpu) (name : Str) (h : Flags l ws) (hc : cpuInfo (some (cpuFile l)) = .ok c)
    (hn : name ≠ []) (hb : ' ' ∉ name) (hr : valueOf l (c!"stepping") ≠ [] ∨ valueOf l (c!"CPU revision") ≠ []) : hasFeature c name = true ↔ name ∈ ws := by
  unfold hasFeature
  rw [cpu_flags hc, flag_text h, if_neg (by rintro ⟨h1, h2⟩; rcases hr with h | h <;> contradiction)]
  simp only
  rw [split_isSome]
  cases ws with
  | nil =>
    simp only [joinWith, List.not_mem_nil, iff_false]
    rintro ⟨a, b, e⟩
    obtain ⟨x, n, rfl⟩ := List.exists_cons_of_ne_nil hn
    have hx : x ∈ [' ', ' '] := by
      have : x ∈ a ++ (' ' :: (x :: n) ++ [' ']) ++ b := by simp
      rw [e] at this
      exact this
    simp at hx hb
    exact hb.1 hx.symm
  | cons w ws =>
    rw [padded_join _ (by simp)]
    exact padded_mem hb _ h.words

/-- The flags of a file that has neither are ignored. -/
theorem C221_ignored (l : List (Option Field)) (ws : List Str) (c : Cpu) (name : Str) (h : Flags l ws) (hc : cpuInfo (some (cpuFile l)) = .ok c)
    (h1 : valueOf l (c!"stepping") = []) (h2 : valueOf l (c!"CPU revision") = []) : hasFeature c name = false := by
  unfold hasFeature
  rw [cpu_flags hc, flag_text h, if_pos ⟨h1, h2⟩]

theorem desktop_flags : Flags desktop [c!"fpu", c!"tsc", c!"mmx", c!"sse", c!"sse2"] where
  clear w hw := by
    simp only [featureWords, List.mem_cons, List.not_mem_nil, or_false] at hw
    rcases hw with rfl | rfl | rfl <;> exact clear_to (clear_check (by decide +kernel))
  value := by decide +kernel
  words := by decide +kernel

/-- A processor whose stepping is not known. -/
def virtual : List (Option Field) := [some ⟨c!"processor", c!"\t", c!" 0"⟩, some ⟨c!"flags", c!"\t\t", c!" fpu tsc"⟩, none]

theorem virtual_flags : Flags virtual [c!"fpu", c!"tsc"] where
  clear w hw := by
    simp only [featureWords, List.mem_cons, List.not_mem_nil, or_false] at hw
    rcases hw with rfl | rfl | rfl <;> exact clear_to (clear_check (by decide +kernel))
  value := by decide +kernel
  words := by decide +kernel

/-- C221 is false of the code: the flags of a processor without stepping and revision are ignored. -/
theorem C221_refuted : ¬ C221_statement ∧
    ∀ (l : List (Option Field)) (ws : List Str) (c : Cpu) (name : Str), Flags l ws → cpuInfo (some (cpuFile l)) = .ok c →
      valueOf l (c!"stepping") = [] → valueOf l (c!"CPU revision") = [] → hasFeature c name = false := by
  refine ⟨fun h => ?_, C221_ignored⟩
  have e : cpuInfo (some (cpuFile virtual)) = .ok ⟨1, 1, 1, none⟩ := by decide +kernel
  have := (h virtual _ _ (c!"fpu") virtual_flags e (by decide) (by decide)).2 (by decide)
  rw [C221_ignored virtual _ _ _ virtual_flags e (by decide +kernel) (by decide +kernel)] at this
  cases this

example : ∃ c, cpuInfo (some (cpuFile desktop)) = .ok c ∧ hasFeature c (c!"sse") = true ∧ hasFeature c (c!"ss") = false := by
  obtain ⟨c, hc, _⟩ := C220_single desktop 8 desktop_cores (by decide +kernel)
  refine ⟨c, hc, (C221_partial _ _ c _ desktop_flags hc (by decide) (by decide) (.inl (by decide +kernel))).2 (by decide), ?_⟩
  rw [Bool.eq_false_iff]
  intro h
  exact absurd ((C221_partial _ _ c _ desktop_flags hc (by decide) (by decide) (.inl (by decide +kernel))).1 h) (by decide)

end Vital.SysInfo
