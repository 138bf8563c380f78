import Verif.Basic.Str
/-
  SystemTools::Touch (vital/kwiversys/SystemTools.cxx:1317-1394, with utimensat); property C259.
-/
namespace Vital.Files.Tch
open Vital

/-- A time: seconds and nanoseconds. -/
abbrev Time := Int × Nat

/-- A file or directory, and what the process may do with it. -/
structure Entry where
  isDir : Bool
  data : List Nat
  readable : Bool
  writable : Bool
  /-- utimensat with UTIME_NOW is allowed (owner or writable) -/
  touchable : Bool
  atime : Time
  mtime : Time
deriving DecidableEq

/-- What the names lead to (symbolic links followed), where a new file can be made and how it looks, the clock. -/
structure FS where
  entry : Str → Option Entry
  canCreate : Str → Bool
  now : Time

def put (g : Str → Option Entry) (f : Str) (e : Entry) : Str → Option Entry := fun x => if x = f then some e else g x

-- models: vital/kwiversys/SystemTools.cxx:1211-1232 (FileExists): access with R_OK
def fileExists (s : FS) (f : Str) : Bool := f != [] && match s.entry f with
  | some e => e.readable
  | none => false

-- models: fopen(name, "a+b") and fclose, as called at vital/kwiversys/SystemTools.cxx:1323-1329: opening for reading and appending; an empty name
-- or a directory fails; names are taken to lead to different files
def openAppend (s : FS) (f : Str) : Option FS :=
  if f = [] then none
  else match s.entry f with
    | some e => if e.isDir = false ∧ e.readable = true ∧ e.writable = true then some s else none
    | none => if s.canCreate f = true then some { s with entry := put s.entry f ⟨false, [], true, true, true, s.now, s.now⟩ } else none

-- models: vital/kwiversys/SystemTools.cxx:1354-1358 (utimensat with UTIME_OMIT and UTIME_NOW)
def utime (s : FS) (f : Str) : Option FS := match s.entry f with
  | some e => if e.touchable = true then some { s with entry := put s.entry f { e with mtime := s.now } } else none
  | none => none

-- models: vital/kwiversys/SystemTools.cxx:1317-1394 (Touch)
def touch (s : FS) (f : Str) (create : Bool) : Bool × FS :=
  if fileExists s f = false then
    if create = true then
      match openAppend s f with
      | some s' => (true, s')
      | none => (false, s)
    else (true, s)
  else match utime s f with
    | some s' => (true, s')
    | none => (false, s)

/-! ### Specification -/

/-- `f` is as before but for the time of the last change, which is now. -/
def Touched (s s' : FS) (f : Str) : Prop := ∃ e e', s.entry f = some e ∧ s'.entry f = some e' ∧ e'.mtime = s.now ∧ e' = { e with mtime := s.now }

/-- `f` was not there and is now an empty file made now. -/
def Made (s s' : FS) (f : Str) : Prop := s.entry f = none ∧ ∃ e, s'.entry f = some e ∧ e.data = [] ∧ e.isDir = false ∧ e.mtime = s.now

/-- The full statement: when Touch says true, the file was touched, or made (with create), or was not there (without create). -/
def C259_statement : Prop := ∀ (s s' : FS) (f : Str) (create : Bool), f ≠ [] → touch s f create = (true, s') →
  Touched s s' f ∨ (create = true ∧ Made s s' f) ∨ (create = false ∧ s.entry f = none ∧ s' = s)

/-- **C259** (refuted): a file that the process cannot read is not there for Touch: true, and the time is as before. -/
theorem C259_refuted : ¬ C259_statement := by
  intro h
  have := h ⟨fun _ => some ⟨false, [1], false, true, true, (1, 0), (1, 0)⟩, fun _ => true, (5, 0)⟩ _ (c!"f") false (by decide) rfl
  rcases this with ⟨e, e', h1, h2, h3, _⟩ | ⟨h1, _⟩ | ⟨_, h2, _⟩
  · simp at h2
    rw [← h2] at h3
    simp at h3
  · cases h1
  · simp at h2

/-- **C259** (what holds): so it is when all that exists can be read. -/
theorem C259_partial (s s' : FS) (f : Str) (create : Bool) (hf : f ≠ []) (hr : ∀ e, s.entry f = some e → e.readable = true)
    (h : touch s f create = (true, s')) : Touched s s' f ∨ (create = true ∧ Made s s' f) ∨ (create = false ∧ s.entry f = none ∧ s' = s) := by
  cases he : s.entry f with
  | some e =>
    have hex : fileExists s f = true := by simp [fileExists, he, hr e he, hf]
    simp only [touch, hex, Bool.true_eq_false, if_false, utime, he] at h
    split at h
    · rename_i x hx
      split at hx
      · obtain ⟨_, h2⟩ := Prod.mk.inj h
        have hx' := Option.some.inj hx
        subst h2
        rw [← hx']
        exact Or.inl ⟨e, { e with mtime := s.now }, he, by simp [put], rfl, rfl⟩
      · cases hx
    · exact absurd (Prod.mk.inj h).1 (by decide)
  | none =>
    have hex : fileExists s f = false := by simp [fileExists, he]
    cases create with
    | false =>
      simp only [touch, hex, if_true, Bool.false_eq_true, if_false] at h
      exact Or.inr (Or.inr ⟨rfl, rfl, (Prod.mk.inj h).2.symm⟩)
    | true =>
      simp only [touch, hex, if_true, openAppend, if_neg hf, he] at h
      by_cases hc : s.canCreate f = true
      · simp only [hc, if_true] at h
        have h2 := (Prod.mk.inj h).2
        subst h2
        exact Or.inr (Or.inl ⟨rfl, he, ⟨false, [], true, true, true, s.now, s.now⟩, by simp [put], rfl, rfl, rfl⟩)
      · simp only [hc] at h
        exact absurd (Prod.mk.inj h).1 (by decide)

theorem touch_cases (s : FS) (f : Str) (create : Bool) :
    touch s f create = (true, s) ∨ touch s f create = (false, s) ∨
    (s.entry f = none ∧ touch s f create = (true, { s with entry := put s.entry f ⟨false, [], true, true, true, s.now, s.now⟩ })) ∨
    (∃ e, s.entry f = some e ∧ touch s f create = (true, { s with entry := put s.entry f { e with mtime := s.now } })) := by
  unfold touch utime openAppend
  cases s.entry f with
  | none => repeat' split <;> simp_all
  | some e => repeat' split <;> simp_all

/-- **C259** (nothing else): in all cases, the other names, the contents and the times of access of what was there, and the clock stay as they are;
when Touch says false nothing has changed. -/
theorem C259_nothing_else (s : FS) (f : Str) (create : Bool) :
    ((touch s f create).1 = false → (touch s f create).2 = s) ∧ (touch s f create).2.now = s.now ∧
    (∀ g, g ≠ f → (touch s f create).2.entry g = s.entry g) ∧
    ∀ e, s.entry f = some e → ∃ e', (touch s f create).2.entry f = some e' ∧ e'.data = e.data ∧ e'.atime = e.atime ∧ e'.isDir = e.isDir := by
  have put_ne : ∀ (e : Entry) (g : Str), g ≠ f → put s.entry f e g = s.entry g := fun e g hg => by simp [put, hg]
  rcases touch_cases s f create with h | h | ⟨he, h⟩ | ⟨e, he, h⟩
  · rw [h]; exact ⟨fun _ => rfl, rfl, fun _ _ => rfl, fun e he => ⟨e, he, rfl, rfl, rfl⟩⟩
  · rw [h]; exact ⟨fun _ => rfl, rfl, fun _ _ => rfl, fun e he => ⟨e, he, rfl, rfl, rfl⟩⟩
  · rw [h]
    refine ⟨(fun h => by cases h), rfl, fun g hg => put_ne _ g hg, fun e' h' => ?_⟩
    rw [he] at h'; cases h'
  · rw [h]
    refine ⟨(fun h => by cases h), rfl, fun g hg => put_ne _ g hg, fun e' h' => ?_⟩
    rw [he] at h'
    cases h'
    exact ⟨{ e with mtime := s.now }, by simp [put], rfl, rfl, rfl⟩

/-- **C259** (when): with a readable file, or with create where a file can be made, Touch says true unless the time may not be set. -/
theorem C259_succeeds (s : FS) (f : Str) (create : Bool) (hf : f ≠ []) :
    (∀ e, s.entry f = some e → e.readable = true → ((touch s f create).1 = true ↔ e.touchable = true)) ∧
    (s.entry f = none → ((touch s f create).1 = true ↔ create = true → s.canCreate f = true)) := by
  constructor
  · intro e he hr
    have hex : fileExists s f = true := by simp [fileExists, he, hr, hf]
    simp only [touch, hex, Bool.true_eq_false, if_false, utime, he]
    by_cases hc : e.touchable = true
    · simp [hc]
    · simp [hc]
  · intro he
    have hex : fileExists s f = false := by simp [fileExists, he]
    simp only [touch, hex, if_true, openAppend, hf, if_false, he]
    cases create with
    | false => simp
    | true =>
      by_cases hc : s.canCreate f = true
      · simp [hc]
      · simp [hc]

example : (touch ⟨fun _ => none, fun _ => true, (5, 0)⟩ (c!"f") true).1 = true ∧
    ((touch ⟨fun _ => none, fun _ => true, (5, 0)⟩ (c!"f") true).2.entry (c!"f")).map (·.mtime) = some (5, 0) := by decide +kernel

end Vital.Files.Tch
