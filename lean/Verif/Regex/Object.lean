/-
  The object `RegularExpression`: what its operations leave behind for later ones. Property C122.
-/
import Verif.Regex.Props

namespace Vital.Regex

/-- A pointer member: never assigned, null, or at a position in the string at an address. -/
inductive Slot where
  | junk
  | null
  | at (addr pos : Nat)
  deriving DecidableEq

/-- The members. (`regstart`, `reganch`, `regmust`, `regmlen` and `progsize` are part of the program; they are assigned when `program` is.) -/
-- models: vital/kwiversys/RegularExpression.hxx.in:286-300
structure Obj where
  prog : Option Prog
  st : Nat → Slot
  en : Nat → Slot
  search : Slot

/-- The default constructor sets only `program`. -/
-- models: vital/kwiversys/RegularExpression.hxx.in:307-312
def Obj.new : Obj := ⟨none, fun _ => .junk, fun _ => .junk, .junk⟩

def put (f : Nat → Slot) (n : Nat) (s : Slot) : Nat → Slot := fun i => if i = n then s else f i

/-- `compile(const char*)` and its result. The first pass decides on syntax errors (before any member is assigned) and on the size. -/
-- models: vital/kwiversys/RegularExpression.cxx:346-421 (compile)
def Obj.compile (o : Obj) (exp : List Nat) : Obj × Bool :=
  match reg 11 false (regc [156] ⟨exp, 1, 0, none⟩) with
  | none => (o, false)
  | some _ =>
    match Regex.compile exp with
    | .error _ => ({ o with st := put o.st 0 .null, en := put o.en 0 .null, search := .null }, false)
    | .ok p => ({ o with prog := some p, st := put o.st 0 .null, en := put o.en 0 .null, search := .null }, true)

/-- Is `regtry` called at all? -/
-- models: vital/kwiversys/RegularExpression.cxx:888-924
def tried (p : Prog) (text : List Nat) : Bool :=
  (match p.must with | some m => hasMust m text | none => true) && (p.anch || p.start == 0 || text.contains p.start)

/-- A position of a find as a pointer. -/
def slotAt (a : Nat) : Option Nat → Slot
  | none => .null
  | some i => .at a i

/-- `find(const char*)` on the string `text` at address `a`, and its result; `none`: a bad memory access, or out of the model's steps.
    `regtry` first makes all twenty pointers null. -/
-- models: vital/kwiversys/RegularExpression.cxx:869-967 (find, regtry)
def Obj.find (o : Obj) (fuel a : Nat) (text : List Nat) : Option (Obj × Bool) :=
  match o.prog with
  | none => some ({ o with search := .at a 0 }, false)
  | some p =>
    match Regex.find p fuel text with
    | .out => none
    | .bad => none
    | .no =>
      if tried p text then some ({ o with st := fun _ => .null, en := fun _ => .null, search := .at a 0 }, false)
      else some ({ o with search := .at a 0 }, false)
    | .yes f =>
      some ({ o with st := fun n => if n = 0 then .at a f.s else slotAt a (f.caps.st n),
                     en := fun n => if n = 0 then .at a f.e else slotAt a (f.caps.en n), search := .at a 0 }, true)

-- models: vital/kwiversys/RegularExpression.hxx.in:381-384 (is_valid)
def Obj.isValid (o : Obj) : Bool := o.prog.isSome

-- models: vital/kwiversys/RegularExpression.hxx.in:387-393 (set_invalid)
def Obj.setInvalid (o : Obj) : Obj := { o with prog := none }

/-- The copy constructor: of the pointers only the first of each array is copied. -/
-- models: vital/kwiversys/RegularExpression.cxx:46-73
def Obj.copy (o : Obj) : Obj :=
  match o.prog with
  | none => Obj.new
  | some p => ⟨some p, put (fun _ => .junk) 0 (o.st 0), put (fun _ => .junk) 0 (o.en 0), .junk⟩

/-- `operator=`. (When the right side is not valid, the storage of the old program is lost.) -/
-- models: vital/kwiversys/RegularExpression.cxx:76-110
def Obj.assign (o r : Obj) : Obj :=
  match r.prog with
  | none => { o with prog := none }
  | some p => { o with prog := some p, st := put o.st 0 (r.st 0), en := put o.en 0 (r.en 0) }

/-- `start(n)`: a difference of pointers; `none` when they do not point into the same string. -/
-- models: vital/kwiversys/RegularExpression.hxx.in:353-357, 398-402
def Obj.start (o : Obj) (n : Nat) : Option Nat :=
  match o.st n, o.search with
  | .at a i, .at b j => if a = b ∧ j ≤ i then some (i - j) else none
  | _, _ => none

-- models: vital/kwiversys/RegularExpression.hxx.in:363-367, 408-412
def Obj.stop (o : Obj) (n : Nat) : Option Nat :=
  match o.en n, o.search with
  | .at a i, .at b j => if a = b ∧ j ≤ i then some (i - j) else none
  | _, _ => none

/-- `match(n)`, given the strings in memory; `none`: a read of memory that is not (or no longer) a string. -/
-- models: vital/kwiversys/RegularExpression.hxx.in:417-429
def Obj.group (o : Obj) (mem : Nat → Option (List Nat)) (n : Nat) : Option (List Nat) :=
  match o.st n, o.en n with
  | .null, _ => some []
  | .at a i, .at b j =>
    if a = b ∧ i ≤ j then (mem a).bind (fun t => if j ≤ t.length then some ((t.drop i).take (j - i)) else none) else none
  | _, _ => none

/-! ### Histories -/

/-- An object after any calls, and the expression of the last compilation that returned true since the object was last invalid, or of the
    object copied from. -/
inductive After : Obj → Option (List Nat) → Prop where
  | new : After Obj.new none
  | compile {o e} (exp) : After o e → 0 ∉ exp → After (o.compile exp).1 (if (o.compile exp).2 then some exp else e)
  | find {o e o' b} (fuel a text) : After o e → o.find fuel a text = some (o', b) → After o' e
  | setInvalid {o e} : After o e → After o.setInvalid none
  | copy {o e} : After o e → After o.copy e
  | assign {o e r e'} : After o e → After r e' → After (o.assign r) e'

/-- The first pass of `compile` fails for syntax errors. -/
theorem first_pass (exp : List Nat) (h0 : 0 ∉ exp) (h : parse exp = none) : reg 11 false (regc [156] ⟨exp, 1, 0, none⟩) = none := by
  have t1 := reg_top 10 (regc [156] ⟨exp, 1, 0, none⟩) (by simpa [regc] using h0) rfl
  have e1 : (regc [156] ⟨exp, 1, 0, none⟩).rest = exp := rfl
  rw [e1] at t1
  have hpn : parseN 10 exp = parse exp := rfl
  rw [hpn, h] at t1
  exact t1 rfl

theorem compile_prog (o : Obj) (exp : List Nat) :
    (∃ p, Regex.compile exp = .ok p ∧ (o.compile exp).2 = true ∧ (o.compile exp).1.prog = some p) ∨
    ((∃ x, Regex.compile exp = .error x) ∧ (o.compile exp).2 = false ∧ (o.compile exp).1.prog = o.prog) := by
  unfold Obj.compile
  cases hr : reg 11 false (regc [156] ⟨exp, 1, 0, none⟩) with
  | none => right; exact ⟨⟨.refused, by simp [Regex.compile, hr]⟩, rfl, rfl⟩
  | some v =>
    cases hc : Regex.compile exp with
    | error x => right; exact ⟨⟨x, rfl⟩, rfl, rfl⟩
    | ok p => left; exact ⟨p, rfl, rfl, rfl⟩

theorem find_prog {o o' : Obj} {fuel a : Nat} {text : List Nat} {b : Bool} (h : o.find fuel a text = some (o', b)) :
    o'.prog = o.prog ∧ o'.search = .at a 0 := by
  unfold Obj.find at h
  cases hp : o.prog with
  | none => rw [hp] at h; cases h; exact ⟨rfl, rfl⟩
  | some p =>
    rw [hp] at h
    simp only at h
    cases hf : Regex.find p fuel text with
    | out => rw [hf] at h; cases h
    | bad => rw [hf] at h; cases h
    | no =>
      rw [hf] at h
      simp only at h
      split at h <;> cases h <;> exact ⟨rfl, rfl⟩
    | yes f => rw [hf] at h; cases h; exact ⟨rfl, rfl⟩

theorem After.prog {o : Obj} {e : Option (List Nat)} (h : After o e) :
    (e = none ∧ o.prog = none) ∨ ∃ exp p, e = some exp ∧ 0 ∉ exp ∧ o.prog = some p ∧ Regex.compile exp = .ok p := by
  induction h with
  | new => left; exact ⟨rfl, rfl⟩
  | @compile o e exp _ h0 ih =>
    rcases compile_prog o exp with ⟨p, h1, h2, h3⟩ | ⟨-, h2, h3⟩
    · right; exact ⟨exp, p, by simp [h2], h0, h3, h1⟩
    · rw [h2, h3]; simpa using ih
  | find fuel a text _ hf ih => rw [(find_prog hf).1]; exact ih
  | setInvalid => left; exact ⟨rfl, rfl⟩
  | @copy o e _ ih =>
    rcases ih with ⟨h1, h2⟩ | ⟨exp, p, h1, h0, h2, h3⟩
    · left; exact ⟨h1, by simp [Obj.copy, h2, Obj.new]⟩
    · right; exact ⟨exp, p, h1, h0, by simp [Obj.copy, h2], h3⟩
  | @assign o e r e' _ _ _ ih =>
    rcases ih with ⟨h1, h2⟩ | ⟨exp, p, h1, h0, h2, h3⟩
    · left; exact ⟨h1, by simp [Obj.assign, h2]⟩
    · right; exact ⟨exp, p, h1, h0, by simp [Obj.assign, h2], h3⟩

/-- The program to find with is enough steps away from a result. -/
theorem find_total {o : Obj} {e : Option (List Nat)} (h : After o e) (a : Nat) (text : List Nat) :
    ∃ o' b N, (∀ fuel, N ≤ fuel → o.find fuel a text = some (o', b)) ∧
      (b = true ↔ ∃ exp rx, e = some exp ∧ IsRegex exp rx ∧ ∃ i j, Rx.M text rx i j) := by
  rcases h.prog with ⟨rfl, hp⟩ | ⟨exp, p, rfl, h0, hp, hc⟩
  · refine ⟨_, false, 0, fun fuel _ => by unfold Obj.find; rw [hp], by simp⟩
  · obtain ⟨⟨rx, hrx⟩, -⟩ := (C118_compile_accepts exp h0).2.1 p hc
    have uniq : ∀ rx', IsRegex exp rx' → (∃ i j, Rx.M text rx' i j) → ∃ i j, Rx.M text rx i j := by
      rintro rx' h' ⟨i, j, hm⟩
      exact ⟨i, j, ((C118_one_meaning h' hrx text i (by have := M_range hm; omega)).2 j).mp hm⟩
    obtain ⟨h1, h2, h3⟩ := C119_find_iff h0 hc hrx text
    rcases h3 with hn | ⟨f, hf⟩
    · obtain ⟨N, hN⟩ := hn
      have hno := h1.mp ⟨N, hN⟩
      refine ⟨if tried p text then { o with st := fun _ => .null, en := fun _ => .null, search := .at a 0 } else { o with search := .at a 0 },
        false, N, fun fuel hfu => ?_, ?_⟩
      · unfold Obj.find; rw [hp]; simp only [hN fuel hfu]; split <;> rfl
      · constructor
        · intro h; cases h
        · rintro ⟨exp', rx', he, h', hm⟩
          cases he; exact absurd (uniq rx' h' hm) hno
    · obtain ⟨N, hN⟩ := hf
      refine ⟨{ o with st := fun n => if n = 0 then .at a f.s else slotAt a (f.caps.st n),
                       en := fun n => if n = 0 then .at a f.e else slotAt a (f.caps.en n), search := .at a 0 }, true, N, (fun fuel hfu => ?_), ?_⟩
      · unfold Obj.find; rw [hp]; simp only [hN fuel hfu]
      · exact ⟨fun _ => ⟨exp, rx, rfl, hrx, h2.mp ⟨f, N, hN⟩⟩, fun _ => rfl⟩

/-- C122: whatever was called before, an object is valid exactly when it has an expression, and `find` returns, with true exactly when this
    expression (the last one compiled with success) matches a part of the text. -/
theorem C122_history {o : Obj} {e : Option (List Nat)} (h : After o e) :
    (o.isValid = true ↔ e ≠ none) ∧
    ∀ a text, ∃ o' b, (∃ N, ∀ fuel, N ≤ fuel → o.find fuel a text = some (o', b)) ∧
      (b = true ↔ ∃ exp rx, e = some exp ∧ IsRegex exp rx ∧ ∃ i j, Rx.M text rx i j) := by
  refine ⟨?_, fun a text => ?_⟩
  · rcases h.prog with ⟨rfl, hp⟩ | ⟨exp, p, rfl, h0, hp, hc⟩ <;> simp [Obj.isValid, hp]
  · obtain ⟨o', b, N, h1, h2⟩ := find_total h a text
    exact ⟨o', b, ⟨N, h1⟩, h2⟩

/-- C122: after `compile`: it returned true exactly when the object now stands for the given expression; otherwise the object is as valid, and
    stands for the same expression, as before. -/
theorem C122_compile {o : Obj} {e : Option (List Nat)} (h : After o e) (exp : List Nat) (h0 : 0 ∉ exp) :
    ((o.compile exp).2 = true → (o.compile exp).1.isValid = true ∧ After (o.compile exp).1 (some exp)) ∧
    ((o.compile exp).2 = false → (o.compile exp).1.isValid = o.isValid ∧ After (o.compile exp).1 e) ∧
    ((∃ rx, IsRegex exp rx) → (∀ c ∈ exp, c < 256) → exp.length ≤ 127 → (o.compile exp).2 = true) ∧
    ((¬ ∃ rx, IsRegex exp rx) → (o.compile exp).2 = false ∧ (o.compile exp).1.start 0 = o.start 0 ∧ (o.compile exp).1.stop 0 = o.stop 0) := by
  have ha := After.compile exp h h0
  refine ⟨fun hb => ?_, fun hb => ?_, ?_, ?_⟩
  · rw [hb] at ha
    exact ⟨(C122_history ha).1.mpr (by simp), by simpa using ha⟩
  · rcases compile_prog o exp with ⟨p, h1, h2, h3⟩ | ⟨-, h2, h3⟩
    · rw [h2] at hb; cases hb
    · rw [hb] at ha
      exact ⟨by simp [Obj.isValid, h3], by simpa using ha⟩
  · rintro ⟨rx, hrx⟩ hb hl
    obtain ⟨p, hp⟩ := (C118_compile_accepts exp h0).2.2 rx hrx hb hl
    rcases compile_prog o exp with ⟨p, h1, h2, h3⟩ | ⟨⟨x, h1⟩, h2, h3⟩
    · exact h2
    · rw [hp] at h1; cases h1
  · intro hno
    have hpar : parse exp = none := by
      cases hr : parse exp with
      | none => rfl
      | some r => obtain ⟨e, he, -⟩ := parse_sound hr; exact absurd ⟨e, he⟩ hno
    have hreg := first_pass exp h0 hpar
    have : o.compile exp = (o, false) := by unfold Obj.compile; rw [hreg]
    rw [this]; exact ⟨rfl, rfl, rfl⟩

/-- C122: after a `find` that returned true, `start(n)`, `end(n)` and `match(n)` describe that match, whatever the object held before: the whole
    match is leftmost; a group is unset, with `match(n)` empty, or a part of the text that the inside of the group matches. `match(n)` reads
    the text that was given: it must still be there. -/
theorem C122_accessors {o o' : Obj} {e : Option (List Nat)} (h : After o e) {a : Nat} {text : List Nat}
    (hf : ∃ N, ∀ fuel, N ≤ fuel → o.find fuel a text = some (o', true)) (mem : Nat → Option (List Nat)) (hm : mem a = some text) :
    ∃ exp rx, e = some exp ∧ IsRegex exp rx ∧
      (∃ i j, o'.start 0 = some i ∧ o'.stop 0 = some j ∧ Rx.M text rx i j ∧ (∀ i' j', Rx.M text rx i' j' → i ≤ i') ∧
        o'.group mem 0 = some ((text.drop i).take (j - i))) ∧
      ∀ n, n ≠ 0 → (o'.start n = none ∧ o'.group mem n = some []) ∨
        ∃ i j sub, o'.start n = some i ∧ o'.stop n = some j ∧ rx.Has n sub ∧ Rx.M text sub i j ∧ o'.group mem n = some ((text.drop i).take (j - i)) := by
  obtain ⟨N, hN⟩ := hf
  rcases h.prog with ⟨rfl, hp⟩ | ⟨exp, p, rfl, h0, hp, hc⟩
  · have := hN N (Nat.le_refl _); unfold Obj.find at this; rw [hp] at this; cases this
  obtain ⟨⟨rx, hrx⟩, -⟩ := (C118_compile_accepts exp h0).2.1 p hc
  obtain ⟨h1, h2, h3⟩ := C119_find_iff h0 hc hrx text
  rcases h3 with ⟨M, hM⟩ | ⟨f, hf⟩
  · have := hN (max N M) (by omega)
    unfold Obj.find at this; rw [hp] at this
    simp only [hM (max N M) (by omega)] at this
    split at this <;> cases this
  · obtain ⟨M, hM⟩ := hf
    have ho := hN (max N M) (by omega)
    unfold Obj.find at ho; rw [hp] at ho
    simp only [hM (max N M) (by omega)] at ho
    cases ho
    obtain ⟨g1, g2, -⟩ := C120_find_leftmost h0 hc hrx text ⟨M, hM⟩
    have hr := M_range g1
    refine ⟨exp, rx, rfl, hrx, ⟨f.s, f.e, by simp [Obj.start], by simp [Obj.stop], g1, g2, ?_⟩, ?_⟩
    · simp [Obj.group, hm, hr.1, hr.2]
    · intro n hn
      rcases C121_groups h0 hc hrx text ⟨M, hM⟩ n with ⟨k1, k2⟩ | ⟨i, j, sub, k1, k2, k3, k4, k5, k6, k7⟩
      · left; simp [Obj.start, Obj.group, hn, k1, k2, slotAt]
      · right
        refine ⟨i, j, sub, by simp [Obj.start, hn, k1, slotAt], by simp [Obj.stop, hn, k2, slotAt], k6, k7, ?_⟩
        have := M_range k7
        simp [Obj.group, hn, k1, k2, slotAt, hm, k4, this.2]

/-- C122: a copy, or the left side of an assignment, matches like the original and has its last whole match. (Not its groups, and not
    the string: `start()` of a copy is not defined until its next `find`.) -/
theorem C122_copy {o r : Obj} {e e' : Option (List Nat)} (ho : After o e) (hr : After r e') :
    After r.copy e' ∧ After (o.assign r) e' ∧
    (r.isValid = true → ∀ mem, r.copy.group mem 0 = r.group mem 0 ∧ (o.assign r).group mem 0 = r.group mem 0) ∧
    r.copy.start 0 = none := by
  refine ⟨.copy hr, .assign ho hr, ?_, ?_⟩
  · intro hv mem
    cases hp : r.prog with
    | none => simp [Obj.isValid, hp] at hv
    | some p => simp [Obj.copy, Obj.assign, hp, Obj.group, put]
  · unfold Obj.copy Obj.start
    cases r.prog with
    | none => rfl
    | some p => simp only; split <;> simp_all

/-- Compile, then find in each text (at addresses 1, 2, ...), for examples. -/
def script (o : Obj) (exp : List Nat) (texts : List (List Nat)) : Option Obj :=
  (texts.zipIdx 1).foldl (fun o t => o.bind (fun o => (o.find 1000 t.2 t.1).map Prod.fst)) (some (o.compile exp).1)

/-- C122: a failed `find` may leave the pointers of an earlier match: the second text does not contain the character the pattern starts with, so
    nothing is tried, and `match(0)` still gives the match in the first text; with the third text, it is empty. -/
theorem C122_stale_example :
    ((script Obj.new (bytes "ab*") [bytes "xabbx"]).bind (fun o => o.group (fun _ => some (bytes "xabbx")) 0)) = some (bytes "abb") ∧
    ((script Obj.new (bytes "ab*") [bytes "xabbx", bytes "zzz"]).bind (fun o => o.group (fun _ => some (bytes "xabbx")) 0)) = some (bytes "abb") ∧
    ((script Obj.new (bytes "ab+") [bytes "xabbx", bytes "za"]).bind (fun o => o.group (fun _ => some (bytes "xabbx")) 0)) = some [] := by
  decide +kernel

/-- C122: the same object after a compilation that failed still finds with the old expression. -/
theorem C122_old_example :
    let o := (Obj.new.compile (bytes "ab*")).1
    (o.compile (bytes "a(b")).2 = false ∧ ((o.compile (bytes "a(b")).1.find 1000 1 (bytes "xab")).map Prod.snd = some true := by
  decide +kernel

end Vital.Regex
