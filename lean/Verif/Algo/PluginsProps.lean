import Verif.Algo.Plugins
/-
  Properties of the plugin manager: C134 (name filter), C135 (code of registered implementations stays in memory), C136 (reloading).
-/
namespace Vital.Plugin
open Vital Vital.Sys

/-! ### A small world for the examples -/

/-- A module that registers `items` and returns `r`. -/
def demoImage (items : List Item) (r : Int) : Image := ⟨some (fun _ => (items, r))⟩

/-- A directory `/p` with the given files. -/
def demoFS (files : List (Str × Image)) : FS where
  w := { readable := fun p => decide (p = c!"/p"), isDir := fun p => decide (p = c!"/p") || decide (p = c!"/p/dir.so") }
  entries := fun d => if d = c!"/p" then some ([c!".", c!"..", c!"dir.so", c!"readme.txt"] ++ files.map (·.1)) else none
  lib := fun p => (files.find? (fun f => decide (c!"/p/" ++ f.1 = p))).map (·.2)

def demoStart : State := construct (c!"/p:/none") none

def keyOf (p : Str) : Nat := p.foldl (fun a c => a * 1114112 + c.toNat + 1) 0

/-- Two modules, one without and one with the entry point; then a failing one. -/
example :
    let s := run keyOf demoStart [.register (demoFS [(c!"x.so", ⟨none⟩), (c!"y.so", demoImage [⟨c!"t:a", 1⟩] 0), (c!"z.so", demoImage [⟨c!"t:b", 2⟩] 1)]) []]
    s.log = [⟨c!"/p/x.so", .noEntry⟩, ⟨c!"/p/y.so", .returned 0⟩, ⟨c!"/p/z.so", .returned 1⟩] ∧ registeredModuleNames s = [c!"y"] ∧
      s.loaded.map (·.inst) = [1] := by decide +kernel

/-! ### What one attempt does -/

/-- The library that answers for a path: the copy in memory, or else the file. -/
def answering (key : Str → Nat) (fs : FS) (s : State) (p : Str) : Option Image :=
  match s.loaded.find? (fun l => l.obj == key p) with
  | some l => some l.image
  | none => fs.lib p

/-- C133: an attempt fails to open exactly when no library answers, finds no entry exactly when it has none, and otherwise reports the
    return value of that library's registration function, which was called once with the registrar as it was. -/
theorem C133_outcome (key : Str → Nat) (fs : FS) (s : State) (p : Str) :
    (registerFromModule key fs s p).2.log = s.log ++ [⟨p,
      match answering key fs s p with
      | none => .notOpened
      | some img => match img.entry with
        | none => .noEntry
        | some f => .returned (f (OMap.keys s.registry)).2⟩] := by
  unfold registerFromModule
  cases ho : openLibrary key fs s p with
  | none =>
    have : answering key fs s p = none := by
      unfold openLibrary at ho
      unfold answering
      split at ho
      · cases ho
      · rename_i h; rw [h]
        split at ho
        · assumption
        · cases ho
    simp [this, note]
  | some v =>
    obtain ⟨i, img, s1⟩ := v
    obtain ⟨h1, h2, h3, h4⟩ := openLibrary_frame ho
    have : answering key fs s p = some img := by
      unfold openLibrary at ho
      unfold answering
      split at ho
      · rename_i h; rw [h]; cases ho; rfl
      · rename_i h; rw [h]
        split at ho
        · cases ho
        · rename_i h'; cases ho; exact h'
    rw [this]
    cases he : img.entry with
    | none => simp [note, closeLibrary, he, h4]
    | some f =>
      rcases hf : f (OMap.keys s1.registry) with ⟨items, r⟩
      rw [← h3]
      simp only [he, hf]
      split
      · simp [note, closeLibrary, h4]
      · simp [note, h4]

/-! ### C134: loading by name -/

/-- The documented meaning of the name: exactly the modules of that name (the file name minus the library suffix) are tried. -/
def C134_statement : Prop :=
  ∀ (key : Str → Nat) (fs : FS), fs.Plain → ∀ name : Str, name ≠ [] → ∀ s : State,
    ∃ l, (registerPlugins key fs name s).log = s.log ++ l ∧
      ∀ p, p ∈ l.map Attempt.path ↔ ∃ d ∈ s.searchPaths, Usable fs d ∧ ∃ es, fs.entries d = some es ∧ ∃ e ∈ es, e = name ++ c!".so" ∧ p = d ++ c!"/" ++ e ∧ ¬ fs.w.isDir p = true

theorem mem_candidates (fs : FS) (name : Str) (dirs : List Str) (p : Str) :
    p ∈ candidates fs name dirs ↔ ∃ d ∈ dirs, Usable fs d ∧ ∃ es, fs.entries d = some es ∧ ∃ e ∈ es, Wanted fs name d e ∧ p = d ++ c!"/" ++ e := by
  unfold candidates
  rw [List.mem_flatMap]
  constructor
  · rintro ⟨d, hd, hp⟩
    split at hp
    · rename_i hU
      rw [List.mem_map] at hp
      obtain ⟨e, he, rfl⟩ := hp
      rw [List.mem_filter] at he
      obtain ⟨he, hW⟩ := he
      cases hE : fs.entries d with
      | none => simp [hE] at he
      | some es => simp [hE] at he; exact ⟨d, hd, hU, es, hE, e, he, by simpa using hW, rfl⟩
    · simp at hp
  · rintro ⟨d, hd, hU, es, hE, e, he, hW, rfl⟩
    refine ⟨d, hd, ?_⟩
    rw [if_pos hU, hE]
    exact List.mem_map.2 ⟨e, List.mem_filter.2 ⟨he, by simpa using hW⟩, rfl⟩

/-- The full statement is false: a module called "foo.1" is not found under its own name. -/
theorem C134_refuted : ¬ C134_statement := by
  intro h
  have hp : (demoFS [(c!"foo.1.so", demoImage [] 0)]).Plain := by
    intro d es h e he
    simp only [demoFS] at h
    split at h
    · cases h; revert e; decide
    · cases h
  obtain ⟨l, h1, h2⟩ := h keyOf (demoFS [(c!"foo.1.so", demoImage [] 0)]) hp (c!"foo.1") (by decide) demoStart
  have h3 : (c!"/p/foo.1.so") ∈ l.map Attempt.path := by
    rw [h2]
    exact ⟨c!"/p", by decide, ⟨by decide, by decide, by decide⟩, _, rfl, c!"foo.1.so", by decide, rfl, rfl, by decide⟩
  have h4 : (registerPlugins keyOf (demoFS [(c!"foo.1.so", demoImage [] 0)]) (c!"foo.1") demoStart).log = [] := by decide +kernel
  rw [h4] at h1
  have : l = [] := by
    have := congrArg List.length h1
    simp at this
    exact List.eq_nil_of_length_eq_zero (by omega)
  subst this
  simp at h3

/-- C134 for directories whose module names contain no dot. -/
theorem C134_by_name_partial (key : Str → Nat) (fs : FS) (hfs : fs.Plain)
    (hdot : ∀ d es, fs.entries d = some es → ∀ e ∈ es, ∀ stem, e = stem ++ c!".so" → '.' ∉ stem) (name : Str) (hn : name ≠ []) (s : State) :
    ∃ l, (registerPlugins key fs name s).log = s.log ++ l ∧
      ∀ p, p ∈ l.map Attempt.path ↔ ∃ d ∈ s.searchPaths, Usable fs d ∧ ∃ es, fs.entries d = some es ∧ ∃ e ∈ es, e = name ++ c!".so" ∧ p = d ++ c!"/" ++ e ∧ ¬ fs.w.isDir p = true := by
  obtain ⟨l, h1, h2⟩ := C132_files key fs hfs name s
  refine ⟨l, h1, ?_⟩
  intro p
  rw [h2, mem_candidates]
  constructor
  · rintro ⟨d, hd, hU, es, hE, e, he, ⟨⟨stem, hs⟩, hw, hnd⟩, rfl⟩
    refine ⟨d, hd, hU, es, hE, e, he, ?_, rfl, hnd⟩
    have hst := hdot d es hE e he stem hs
    have hb : beforeFirst '.' e = stem := by
      rw [firstPart_iff]
      exact ⟨hst, .inr ⟨c!"so", by rw [hs]; simp⟩⟩
    have hw' := hw.resolve_left hn
    rw [← firstPart_iff, hb] at hw'
    rw [← hw']; exact hs
  · rintro ⟨d, hd, hU, es, hE, e, he, hs, rfl, hnd⟩
    refine ⟨d, hd, hU, es, hE, e, he, ⟨⟨name, hs⟩, .inr ⟨hdot d es hE e he name hs, .inr ⟨c!"so", by rw [hs]; simp⟩⟩, hnd⟩, rfl⟩

/-- A name with a dot in it loads nothing at all. -/
theorem C134_dotted_name (key : Str → Nat) (fs : FS) (hfs : fs.Plain) (name : Str) (hn : '.' ∈ name) (s : State) : registerPlugins key fs name s = s := by
  apply C132_nothing key fs hfs
  rintro d _ _ es _ e _ ⟨_, hw, _⟩
  rcases hw with rfl | hw
  · simp at hn
  · exact hw.1 hn

example : (run keyOf demoStart [.register (demoFS [(c!"a.so", demoImage [⟨c!"t:a", 1⟩] 0), (c!"b.so", demoImage [⟨c!"t:b", 1⟩] 0)]) (c!"b")]).log.map Attempt.path = [c!"/p/b.so"] := by decide +kernel

/-! ### C135: the code of registered implementations stays in memory -/

/-- Every object in the registrar has its code in a library that is in memory. -/
def NoDangling (s : State) : Prop := ∀ n o, OMap.find? s.registry n = some o → ∃ l ∈ s.loaded, l.inst = o.inst

/-- After any history of calls, whatever the modules are, no registered implementation has lost its code. -/
def C135_statement : Prop := ∀ (key : Str → Nat) (d : Str) (e : Option Str) (ops : List Op), NoDangling (run key (construct d e) ops)

/-- The full statement is false: a module that registers one implementation, fails to register another one and says so is unloaded,
    but the implementation it did register stays in the registrar. -/
theorem C135_refuted : ¬ C135_statement := by
  intro h
  have := h keyOf (c!"/p:/none") none [.register (demoFS [(c!"m.so", demoImage [⟨c!"t:a", 1⟩] 1)]) []]
  have h1 : OMap.find? (run keyOf (construct (c!"/p:/none") none) [.register (demoFS [(c!"m.so", demoImage [⟨c!"t:a", 1⟩] 1)]) []]).registry (c!"t:a") = some ⟨0, 1⟩ := by decide +kernel
  have h2 : (run keyOf (construct (c!"/p:/none") none) [.register (demoFS [(c!"m.so", demoImage [⟨c!"t:a", 1⟩] 1)]) []]).loaded.length = 0 := by decide +kernel
  obtain ⟨l, hl, _⟩ := this _ _ h1
  rw [List.eq_nil_of_length_eq_zero h2] at hl
  cases hl

/-- A registration function that reports failures has registered nothing. -/
def Image.AllOrNothing (img : Image) : Prop := ∀ f, img.entry = some f → ∀ names, (f names).2 > 0 → (f names).1 = []

/-- The modules on disk during each call of a history. -/
def OpsOk (P : Image → Prop) (ops : List Op) : Prop := ∀ fs name, Op.register fs name ∈ ops → ∀ p img, fs.lib p = some img → P img

structure Inv (s : State) : Prop where
  count : ∀ l ∈ s.loaded, l.count ≠ 0
  inst : ∀ l ∈ s.loaded, l.inst < s.next
  nodup : s.loaded.Pairwise (fun a b => a.inst ≠ b.inst)
  image : ∀ l ∈ s.loaded, l.image.AllOrNothing
  owners : NoDangling s

theorem foldl_registerItem (i : Nat) : ∀ (items : List Item) (reg : OMap Str Obj) (n : Str) (o : Obj),
    OMap.find? (items.foldl (registerItem i) reg) n = some o → o.inst = i ∨ OMap.find? reg n = some o := by
  intro items
  induction items with
  | nil => intro reg n o h; exact .inr h
  | cons it items ih =>
    intro reg n o h
    rcases ih _ n o h with h | h
    · exact .inl h
    · unfold registerItem at h
      rw [OMap.find?_insert] at h
      split at h
      · cases h; exact .inl rfl
      · exact .inr h

/-- The bump of the use count. -/
def bump (i : Nat) (ls : List Loaded) : List Loaded := ls.map (fun m => if m.inst = i then { m with count := m.count + 1 } else m)

theorem close_bump (i : Nat) (ls : List Loaded) (h : ∀ l ∈ ls, l.count ≠ 0) :
    ((bump i ls).map (fun m => if m.inst = i then { m with count := m.count - 1 } else m)).filter (fun m => m.count != 0) = ls := by
  unfold bump
  induction ls with
  | nil => rfl
  | cons l ls ih =>
    have ih := ih (fun x hx => h x (by simp [hx]))
    have hl := h l (by simp)
    by_cases e : l.inst = i
    · subst e
      simp only [List.map_cons, if_true, Nat.add_sub_cancel]
      rw [List.filter_cons_of_pos (by simpa using hl), ih]
    · simp only [List.map_cons, e, if_false]
      rw [List.filter_cons_of_pos (by simpa using hl), ih]

theorem close_fresh (l : Loaded) (hl : l.count = 1) (ls : List Loaded) (h : ∀ m ∈ ls, m.count ≠ 0) (hi : ∀ m ∈ ls, m.inst < l.inst) :
    ((l :: ls).map (fun m => if m.inst = l.inst then { m with count := m.count - 1 } else m)).filter (fun m => m.count != 0) = ls := by
  have : ∀ ms : List Loaded, (∀ m ∈ ms, m.count ≠ 0) → (∀ m ∈ ms, m.inst < l.inst) →
      (ms.map (fun m => if m.inst = l.inst then { m with count := m.count - 1 } else m)).filter (fun m => m.count != 0) = ms := by
    intro ms
    induction ms with
    | nil => intros; rfl
    | cons m ms ih =>
      intro h1 h2
      have e : ¬ m.inst = l.inst := by have := h2 m (by simp); omega
      simp only [List.map_cons, e, if_false]
      rw [List.filter_cons_of_pos (by simpa using h1 m (by simp)), ih (fun x hx => h1 x (by simp [hx])) (fun x hx => h2 x (by simp [hx]))]
  simp only [List.map_cons, if_true]
  rw [List.filter_cons_of_neg (by simp [hl]), this ls h hi]

/-- What opening does to an orderly state. -/
theorem open_cases {key : Str → Nat} {fs : FS} {s : State} {p : Str} {i : Nat} {img : Image} {s1 : State} (h : openLibrary key fs s p = some (i, img, s1)) :
    (∃ l ∈ s.loaded, l.inst = i ∧ l.image = img ∧ l.obj = key p ∧ s1 = { s with loaded := bump i s.loaded }) ∨
    (fs.lib p = some img ∧ i = s.next ∧ s1 = { s with loaded := ⟨key p, s.next, img, 1⟩ :: s.loaded, next := s.next + 1 }) := by
  unfold openLibrary at h
  split at h
  · rename_i l hl
    cases h
    left
    have h1 := List.mem_of_find?_eq_some hl
    have h2 := List.find?_some hl
    exact ⟨l, h1, rfl, rfl, by simpa using h2, rfl⟩
  · split at h
    · cases h
    · rename_i hi
      cases h
      exact .inr ⟨hi, rfl, rfl⟩

theorem bump_inst (i : Nat) (ls : List Loaded) (l : Loaded) (h : l ∈ bump i ls) : ∃ m ∈ ls, m.inst = l.inst ∧ m.image = l.image ∧ (m.count ≠ 0 → l.count ≠ 0) := by
  unfold bump at h
  rw [List.mem_map] at h
  obtain ⟨m, hm, rfl⟩ := h
  refine ⟨m, hm, ?_⟩
  split
  · exact ⟨rfl, rfl, fun _ => by simp⟩
  · exact ⟨rfl, rfl, fun h => h⟩

theorem mem_bump (i : Nat) (ls : List Loaded) (m : Loaded) (h : m ∈ ls) : ∃ l ∈ bump i ls, l.inst = m.inst := by
  refine ⟨if m.inst = i then { m with count := m.count + 1 } else m, List.mem_map.2 ⟨m, h, rfl⟩, ?_⟩
  split <;> rfl

theorem inv_open {key : Str → Nat} {fs : FS} {s : State} {p : Str} {i : Nat} {img : Image} {s1 : State} (h : openLibrary key fs s p = some (i, img, s1)) (hs : Inv s)
    (hfs : ∀ p img, fs.lib p = some img → img.AllOrNothing) : Inv s1 ∧ img.AllOrNothing ∧ (∃ l ∈ s1.loaded, l.inst = i) ∧ (closeLibrary s1 i).loaded = s.loaded ∧ s.next ≤ s1.next := by
  rcases open_cases h with ⟨l, hl, hi, himg, _, rfl⟩ | ⟨hlib, rfl, rfl⟩
  · refine ⟨⟨?_, ?_, ?_, ?_, ?_⟩, ?_, ?_, ?_, ?_⟩
    · intro x hx
      obtain ⟨m, hm, _, _, hc⟩ := bump_inst _ _ _ hx
      exact hc (hs.count m hm)
    · intro x hx
      obtain ⟨m, hm, he, _, _⟩ := bump_inst _ _ _ hx
      rw [← he]; exact hs.inst m hm
    · have e : ∀ m : Loaded, (if m.inst = i then { m with count := m.count + 1 } else m).inst = m.inst := by intro m; split <;> rfl
      show (bump i s.loaded).Pairwise _
      unfold bump
      rw [List.pairwise_map]
      exact hs.nodup.imp (fun hab => by rw [e, e]; exact hab)
    · intro x hx
      obtain ⟨m, hm, _, he, _⟩ := bump_inst _ _ _ hx
      rw [← he]; exact hs.image m hm
    · intro n o ho
      obtain ⟨m, hm, he⟩ := hs.owners n o ho
      obtain ⟨x, hx, hxe⟩ := mem_bump i s.loaded m hm
      exact ⟨x, hx, by rw [hxe, he]⟩
    · rw [← himg]; exact hs.image l hl
    · obtain ⟨x, hx, hxe⟩ := mem_bump i s.loaded l hl
      exact ⟨x, hx, by rw [hxe, hi]⟩
    · exact close_bump i s.loaded hs.count
    · exact Nat.le_refl _
  · refine ⟨⟨?_, ?_, ?_, ?_, ?_⟩, hfs _ _ hlib, ⟨⟨key p, s.next, img, 1⟩, by simp, rfl⟩, ?_, ?_⟩
    · intro x hx
      rcases List.mem_cons.1 hx with rfl | hx
      · simp
      · exact hs.count x hx
    · intro x hx
      rcases List.mem_cons.1 hx with rfl | hx
      · simp
      · exact Nat.lt_succ_of_lt (hs.inst x hx)
    · refine List.Pairwise.cons ?_ hs.nodup
      intro x hx
      have := hs.inst x hx
      simp only [ne_eq]
      omega
    · intro x hx
      rcases List.mem_cons.1 hx with rfl | hx
      · exact hfs _ _ hlib
      · exact hs.image x hx
    · intro n o ho
      obtain ⟨m, hm, he⟩ := hs.owners n o ho
      exact ⟨m, by simp [hm], he⟩
    · exact close_fresh ⟨key p, s.next, img, 1⟩ rfl s.loaded hs.count hs.inst
    · simp

theorem inv_register (key : Str → Nat) (fs : FS) (hfs : ∀ p img, fs.lib p = some img → img.AllOrNothing) (s : State) (p : Str) (hs : Inv s) :
    Inv (registerFromModule key fs s p).2 := by
  unfold registerFromModule
  cases ho : openLibrary key fs s p with
  | none => exact ⟨hs.count, hs.inst, hs.nodup, hs.image, hs.owners⟩
  | some v =>
    obtain ⟨i, img, s1⟩ := v
    obtain ⟨i1, i2, i3, i4, i5⟩ := inv_open ho hs hfs
    obtain ⟨f1, f2, f3, f4⟩ := openLibrary_frame ho
    cases he : img.entry with
    | none =>
      simp only [he]
      refine ⟨?_, ?_, ?_, ?_, ?_⟩
      · show ∀ l ∈ (closeLibrary s1 i).loaded, _; rw [i4]; exact hs.count
      · show ∀ l ∈ (closeLibrary s1 i).loaded, l.inst < s1.next
        rw [i4]; exact fun l hl => Nat.lt_of_lt_of_le (hs.inst l hl) i5
      · show (closeLibrary s1 i).loaded.Pairwise _; rw [i4]; exact hs.nodup
      · show ∀ l ∈ (closeLibrary s1 i).loaded, _; rw [i4]; exact hs.image
      · intro n o h
        show ∃ l ∈ (closeLibrary s1 i).loaded, _
        rw [i4]
        exact hs.owners n o (by rw [← f3]; exact h)
    | some f =>
      rcases hf : f (OMap.keys s1.registry) with ⟨items, r⟩
      simp only [he, hf]
      by_cases hr : r > 0
      · have hit : items = [] := by
          have := i2 f he (OMap.keys s1.registry)
          rw [hf] at this
          exact this hr
        rw [if_pos hr]
        subst hit
        refine ⟨?_, ?_, ?_, ?_, ?_⟩
        · show ∀ l ∈ (closeLibrary s1 i).loaded, _; rw [i4]; exact hs.count
        · show ∀ l ∈ (closeLibrary s1 i).loaded, l.inst < s1.next
          rw [i4]; exact fun l hl => Nat.lt_of_lt_of_le (hs.inst l hl) i5
        · show (closeLibrary s1 i).loaded.Pairwise _; rw [i4]; exact hs.nodup
        · show ∀ l ∈ (closeLibrary s1 i).loaded, _; rw [i4]; exact hs.image
        · intro n o h
          show ∃ l ∈ (closeLibrary s1 i).loaded, _
          rw [i4]
          exact hs.owners n o (by rw [← f3]; exact h)
      · rw [if_neg hr]
        refine ⟨i1.count, i1.inst, i1.nodup, i1.image, ?_⟩
        intro n o h
        rcases foldl_registerItem i items s1.registry n o h with h | h
        · obtain ⟨l, hl, e⟩ := i3; exact ⟨l, hl, by rw [e, h]⟩
        · exact i1.owners n o h

/-- A property kept by every attempt is kept by every call. -/
theorem run_invariant (key : Str → Nat) (P : State → Prop) (Q : Image → Prop) (hadd : ∀ s p, P s → P (addSearchPath s p))
    (hreg : ∀ fs, (∀ p img, fs.lib p = some img → Q img) → ∀ s p, P s → P (registerFromModule key fs s p).2) :
    ∀ (ops : List Op) (s : State), OpsOk Q ops → P s → P (run key s ops) := by
  intro ops
  induction ops with
  | nil => intro s _ h; exact h
  | cons op ops ih =>
    intro s hops h
    refine ih _ (fun fs name hm => hops fs name (by simp [hm])) ?_
    cases op with
    | addPath p => exact hadd s p h
    | register fs name =>
      have hq := hops fs name (by simp)
      have hEntries : ∀ (dir : Str) (es : List Str) (s : State), P s → P (loadEntries key fs name dir s es) := by
        intro dir es
        induction es with
        | nil => intro s h; exact h
        | cons e es ih =>
          intro s h
          rw [loadEntries]
          apply ih
          split
          · split
            · exact hreg fs hq s _ h
            · exact h
          · exact h
      have hDir : ∀ (s : State) (d : Str), P s → P (loadDir key fs name s d) := by
        intro s d h
        unfold loadDir
        repeat' split
        all_goals first | exact h | exact hEntries _ _ _ h
      have : ∀ (ds : List Str) (s : State), P s → P (ds.foldl (loadDir key fs name) s) := by
        intro ds
        induction ds with
        | nil => intro s h; exact h
        | cons d ds ih => intro s h; exact ih _ (hDir s d h)
      exact this _ s h

/-- C135 when modules register all of their implementations or none: after any history of calls, loading and reloading any files in
    any order, the code of every registered implementation is in memory. -/
theorem C135_code_stays_partial (key : Str → Nat) (d : Str) (e : Option Str) (ops : List Op) (hops : OpsOk Image.AllOrNothing ops) :
    NoDangling (run key (construct d e) ops) := by
  have : Inv (run key (construct d e) ops) := by
    refine run_invariant key Inv Image.AllOrNothing ?_ ?_ ops _ hops ?_
    · intro s p h; exact ⟨h.count, h.inst, h.nodup, h.image, h.owners⟩
    · intro fs hfs s p h; exact inv_register key fs hfs s p h
    · exact ⟨by simp [construct], by simp [construct], by simp [construct], by simp [construct], by intro n o h; simp [construct, OMap.find?] at h⟩
  exact this.owners

/-- Loading the same good module twice and a failing one: the registered implementations are all usable. -/
example : NoDangling (run keyOf demoStart [.register (demoFS [(c!"g.so", demoImage [⟨c!"t:a", 1⟩] 0)]) [], .register (demoFS [(c!"f.so", demoImage [] 2), (c!"g.so", demoImage [⟨c!"t:a", 1⟩] 0)]) []]) := by
  apply C135_code_stays_partial
  intro fs name h p img hp
  have aon : ∀ files : List (Str × Image), (∀ f ∈ files, f.2.AllOrNothing) → ∀ p img, (demoFS files).lib p = some img → img.AllOrNothing := by
    intro files hf p img h
    simp only [demoFS, Option.map_eq_some_iff] at h
    obtain ⟨f, h1, h2⟩ := h
    rw [← h2]
    exact hf f (List.mem_of_find?_eq_some h1)
  have g : ∀ items (r : Int), (r > 0 → items = []) → (demoImage items r).AllOrNothing := by
    intro items r h f hf names
    simp [demoImage] at hf
    subst hf
    exact h
  simp at h
  rcases h with ⟨rfl, rfl⟩ | ⟨rfl, rfl⟩
  · exact aon _ (by simp; exact g _ _ (by decide)) p img hp
  · exact aon _ (by simp; exact ⟨g _ _ (by decide), g _ _ (by decide)⟩) p img hp

/-! ### C136: reloading -/

/-- What is registered under a name behaves like `b`. -/
def Behaves (s : State) (n : Str) (b : Nat) : Prop := ∃ o, OMap.find? s.registry n = some o ∧ o.beh = b

/-- "In the case of reloading plugins, existing plugins will be replaced with newer ones": after a call that finds the single module
    `p`, what it registers is what the file now at `p` registers. -/
def C136_statement : Prop :=
  ∀ (key : Str → Nat) (d : Str) (e : Option Str) (ops : List Op) (fs : FS) (p : Str) (img : Image) (f : List Str → List Item × Int),
    fs.Plain → candidates fs [] (run key (construct d e) ops).searchPaths = [p] → fs.lib p = some img → img.entry = some f →
    let items := (f (OMap.keys (run key (construct d e) ops).registry)).1
    (items.map Item.name).Nodup → ∀ it ∈ items, Behaves (run key (construct d e) (ops ++ [.register fs []])) it.name it.beh

theorem foldl_registerItem_self (i : Nat) : ∀ (items : List Item) (reg : OMap Str Obj), (items.map Item.name).Nodup →
    (∀ it ∈ items, OMap.find? (items.foldl (registerItem i) reg) it.name = some ⟨i, it.beh⟩) ∧
    (∀ n, n ∉ items.map Item.name → OMap.find? (items.foldl (registerItem i) reg) n = OMap.find? reg n) := by
  intro items
  induction items with
  | nil => intro reg _; simp
  | cons it items ih =>
    intro reg hnd
    simp only [List.map_cons, List.nodup_cons] at hnd
    obtain ⟨i1, i2⟩ := ih (registerItem i reg it) hnd.2
    refine ⟨?_, ?_⟩
    · intro x hx
      rcases List.mem_cons.1 hx with rfl | hx
      · rw [List.foldl_cons, i2 _ hnd.1]
        unfold registerItem
        rw [OMap.find?_insert_self]
      · exact i1 x hx
    · intro n hn
      simp only [List.map_cons, List.mem_cons, not_or] at hn
      rw [List.foldl_cons, i2 n hn.2]
      unfold registerItem
      rw [OMap.find?_insert_ne _ _ hn.1]

/-- What an attempt registers: the items of the library that answers, whatever its registration function returns. -/
theorem registerFromModule_registry (key : Str → Nat) (fs : FS) (s : State) (p : Str) (img : Image) (f : List Str → List Item × Int)
    (ha : answering key fs s p = some img) (he : img.entry = some f) :
    ∃ i, (registerFromModule key fs s p).2.registry = (f (OMap.keys s.registry)).1.foldl (registerItem i) s.registry := by
  unfold registerFromModule
  cases ho : openLibrary key fs s p with
  | none =>
    exfalso
    unfold openLibrary at ho
    unfold answering at ha
    split at ho
    · cases ho
    · rename_i h; rw [h] at ha
      simp only at ha
      rw [ha] at ho
      cases ho
  | some v =>
    obtain ⟨i, img', s1⟩ := v
    obtain ⟨_, _, h3, _⟩ := openLibrary_frame ho
    have hi : img' = img := by
      unfold openLibrary at ho
      unfold answering at ha
      split at ho
      · rename_i h; rw [h] at ha; cases ho; cases ha; rfl
      · rename_i h; rw [h] at ha
        split at ho
        · cases ho
        · rename_i h'; cases ho; rw [h'] at ha; cases ha; rfl
    subst hi
    refine ⟨i, ?_⟩
    rcases hf : f (OMap.keys s1.registry) with ⟨items, r⟩
    rw [← h3, hf]
    simp only [he, hf]
    split <;> rfl

/-- The full statement is false: the file at `/p/m.so` has been replaced by a new version, but the old one is in memory. -/
theorem C136_refuted : ¬ C136_statement := by
  intro h
  have hp : ∀ img, (demoFS [(c!"m.so", img)]).Plain := by
    intro img d es h e he
    simp only [demoFS] at h
    split at h
    · cases h; revert e; simp
    · cases h
  have hc : ∀ img, candidates (demoFS [(c!"m.so", img)]) [] [c!"/p", c!"/none"] = [c!"/p/m.so"] := by
    intro img
    have w : Wanted (demoFS [(c!"m.so", img)]) [] (c!"/p") (c!"m.so") := ⟨⟨c!"m", rfl⟩, .inl rfl, by simp [demoFS]⟩
    have w1 : ¬ Wanted (demoFS [(c!"m.so", img)]) [] (c!"/p") (c!".") := by
      rintro ⟨⟨st, h⟩, _⟩; have := congrArg List.length h; simp at this
    have w2 : ¬ Wanted (demoFS [(c!"m.so", img)]) [] (c!"/p") (c!"..") := by
      rintro ⟨⟨st, h⟩, _⟩; have := congrArg List.length h; simp at this
    have w3 : ¬ Wanted (demoFS [(c!"m.so", img)]) [] (c!"/p") (c!"dir.so") := by
      rintro ⟨_, _, h⟩; exact h (by simp [demoFS])
    have w4 : ¬ Wanted (demoFS [(c!"m.so", img)]) [] (c!"/p") (c!"readme.txt") := by
      rintro ⟨⟨st, h⟩, _⟩
      have := congrArg List.getLast? h
      rw [List.getLast?_append] at this
      simp at this
    have u : Usable (demoFS [(c!"m.so", img)]) (c!"/p") := ⟨by decide, by simp [demoFS], by simp [demoFS]⟩
    have u2 : ¬ Usable (demoFS [(c!"m.so", img)]) (c!"/none") := by rintro ⟨_, h, _⟩; revert h; simp [demoFS]
    have hE : (demoFS [(c!"m.so", img)]).entries (c!"/p") = some [c!".", c!"..", c!"dir.so", c!"readme.txt", c!"m.so"] := rfl
    unfold candidates
    simp only [List.flatMap_cons, List.flatMap_nil, if_pos u, if_neg u2, hE, Option.getD_some]
    rw [List.filter_cons_of_neg (by simpa using w1), List.filter_cons_of_neg (by simpa using w2), List.filter_cons_of_neg (by simpa using w3), List.filter_cons_of_neg (by simpa using w4), List.filter_cons_of_pos (by simpa using w)]
    rfl
  have h1 := h keyOf (c!"/p:/none") none [.register (demoFS [(c!"m.so", demoImage [⟨c!"t:a", 1⟩] 0)]) []] (demoFS [(c!"m.so", demoImage [⟨c!"t:a", 2⟩] 0)]) (c!"/p/m.so")
    (demoImage [⟨c!"t:a", 2⟩] 0) (fun _ => ([⟨c!"t:a", 2⟩], 0)) (hp _)
    (by rw [run_searchPaths]; exact hc _) (by simp [demoFS]) rfl
  simp only [List.map_cons, List.map_nil] at h1
  obtain ⟨o, h2, h3⟩ := h1 (by simp) ⟨c!"t:a", 2⟩ (by simp)
  have h4 : OMap.find? (run keyOf (construct (c!"/p:/none") none) ([.register (demoFS [(c!"m.so", demoImage [⟨c!"t:a", 1⟩] 0)]) []] ++ [.register (demoFS [(c!"m.so", demoImage [⟨c!"t:a", 2⟩] 0)]) []])).registry (c!"t:a") = some ⟨0, 1⟩ := by decide +kernel
  rw [h4] at h2
  cases h2
  cases h3

/-- C136: what a call that finds the single module `p` registers is what the library that answers for `p` registers: the copy in
    memory when there is one, the file otherwise. -/
theorem C136_answering (key : Str → Nat) (s : State) (fs : FS) (hfs : fs.Plain) (name p : Str) (img : Image) (f : List Str → List Item × Int)
    (hc : candidates fs name s.searchPaths = [p]) (ha : answering key fs s p = some img) (he : img.entry = some f)
    (hnd : ((f (OMap.keys s.registry)).1.map Item.name).Nodup) :
    (∀ it ∈ (f (OMap.keys s.registry)).1, Behaves (step key s (.register fs name)) it.name it.beh) ∧
    (∀ n, n ∉ (f (OMap.keys s.registry)).1.map Item.name → OMap.find? (step key s (.register fs name)).registry n = OMap.find? s.registry n) := by
  have e : step key s (.register fs name) = (registerFromModule key fs s p).2 := by
    show registerPlugins key fs name s = _
    rw [registerPlugins_eq key fs hfs, hc]; rfl
  obtain ⟨i, hi⟩ := registerFromModule_registry key fs s p img f ha he
  obtain ⟨h1, h2⟩ := foldl_registerItem_self i _ s.registry hnd
  rw [e]
  unfold Behaves
  rw [hi]
  exact ⟨fun it hit => ⟨_, h1 it hit, rfl⟩, h2⟩

/-- C136 for modules that are not in memory (never loaded, or unloaded after a failed registration): the newest version is registered
    and replaces whatever had its names. -/
theorem C136_reload_partial (key : Str → Nat) (d : Str) (e : Option Str) (ops : List Op) (fs : FS) (p : Str) (img : Image) (f : List Str → List Item × Int)
    (hfs : fs.Plain) (hc : candidates fs [] (run key (construct d e) ops).searchPaths = [p]) (hlib : fs.lib p = some img) (he : img.entry = some f)
    (hnew : ∀ l ∈ (run key (construct d e) ops).loaded, l.obj ≠ key p)
    (hnd : ((f (OMap.keys (run key (construct d e) ops).registry)).1.map Item.name).Nodup) :
    ∀ it ∈ (f (OMap.keys (run key (construct d e) ops).registry)).1, Behaves (run key (construct d e) (ops ++ [.register fs []])) it.name it.beh := by
  have hr : run key (construct d e) (ops ++ [.register fs []]) = step key (run key (construct d e) ops) (.register fs []) := by simp [run]
  rw [hr]
  refine (C136_answering key _ fs hfs [] p img f hc ?_ he hnd).1
  unfold answering
  have : (run key (construct d e) ops).loaded.find? (fun l => l.obj == key p) = none := by
    rw [List.find?_eq_none]
    intro l hl
    simpa using hnew l hl
  rw [this]
  exact hlib

example : Behaves (run keyOf demoStart [.register (demoFS [(c!"m.so", demoImage [⟨c!"t:a", 1⟩] 0)]) [], .register (demoFS [(c!"n.so", demoImage [⟨c!"t:a", 2⟩] 0)]) []]) (c!"t:a") 2 :=
  ⟨⟨1, 2⟩, by decide +kernel, rfl⟩

end Vital.Plugin
