import Verif.Files.Make
/-
  RemoveADirectory of vital/kwiversys/SystemTools.cxx; property C186.
-/
namespace Vital.Files
open Vital

variable (h : Host)

-- models: vital/kwiversys/SystemTools.cxx:2823-2846 (the loop over the directory); `rec`: the recursive call
def removeEach (rec : Tree → Str → Option (Bool × Tree)) (s : Str) : Tree → List Str → Option (Bool × Tree)
  | t, [] => some (true, t)
  | t, c :: l =>
    if c = c!"." ∨ c = c!".." then removeEach rec s t l
    else
      match (if fileIsDirectory h t (s ++ '/' :: c) && !fileIsSymlink h t (s ++ '/' :: c) then rec t (s ++ '/' :: c) else some (removeFile h t (s ++ '/' :: c))) with
      | none => none
      | some (false, t') => some (false, t')
      | some (true, t') => removeEach rec s t' l

-- models: vital/kwiversys/SystemTools.cxx:2804-2812 (write permission is added)
def unprotect (t : Tree) (s : Str) : Tree := match getPermissions h t s with
  | some m => (setPermissions h t s (m ||| 0o200)).2
  | none => t

-- models: vital/kwiversys/SystemTools.cxx:2800-2850 (RemoveADirectory); `none`: out of steps
def removeADirectory : Nat → Tree → Str → Option (Bool × Tree)
  | 0, _, _ => none
  | k + 1, t, s =>
    match removeEach h (removeADirectory k) s (unprotect h t s) (readdir h (unprotect h t s) s) with
    | none => none
    | some (false, t') => some (false, t')
    | some (true, t') => match rmdir h t' s with
      | .ok t'' => some (true, t'')
      | .error _ => some (false, t')

/-! ### Conditions -/

/-- A directory at `p`, all names on the way and below as most paths have them, and all within the steps of a look-up. -/
structure Ready (t : Tree) (p : Path) (d : Nat) : Prop where
  ne : p ≠ []
  plain : Plain p
  dir : ∃ m es, get t p = some (.dir m es)
  below : ∀ q, get t (p ++ q) ≠ none → Plain q ∧ q.length ≤ d
  steps : p.length + d + 1 < h.steps

/-- Nothing but what is below `p` changes, and nothing new appears. -/
def Shrinks (S : Path → Prop) (t t' : Tree) : Prop := ∀ q, (¬ S q → see t' q = see t q) ∧ (see t' q ≠ none → see t q ≠ none)

theorem shrinks_refl (S : Path → Prop) (t : Tree) : Shrinks S t t := fun _ => ⟨fun _ => rfl, id⟩

theorem shrinks_trans {S : Path → Prop} {t1 t2 t3 : Tree} (a : Shrinks S t1 t2) (b : Shrinks S t2 t3) : Shrinks S t1 t3 :=
  fun q => ⟨fun hq => ((b q).1 hq).trans ((a q).1 hq), fun hq => (a q).2 ((b q).2 hq)⟩

theorem shrinks_mono {S S' : Path → Prop} (hS : ∀ q, S q → S' q) {t t' : Tree} (a : Shrinks S t t') : Shrinks S' t t' :=
  fun q => ⟨fun hq => (a q).1 (fun x => hq (hS q x)), (a q).2⟩

theorem alter_drop (t : Tree) (p : Path) : Shrinks (p <+: ·) t (alter (fun _ => none) t p) := by
  intro q
  by_cases hq : p <+: q
  · refine ⟨fun x => absurd hq x, fun hs => ?_⟩
    by_cases hh : HasDir t p
    · obtain ⟨r, rfl⟩ := hq
      exfalso
      apply hs
      unfold see
      rw [alter_below _ _ _ _ hh, get_none]; rfl
    · -- no directory: nothing there, before and after
      obtain ⟨r, rfl⟩ := hq
      have hne : p ≠ [] := fun e => hh (.inl e)
      obtain ⟨p', c, rfl⟩ : ∃ p' c, p = p' ++ [c] := by
        rcases List.eq_nil_or_concat p with rfl | ⟨q, c, rfl⟩
        · exact absurd rfl hne
        · exact ⟨q, c, by rw [List.concat_eq_append]⟩
      have hs' : see (alter (fun _ => none) t (p' ++ [c])) p' = see t p' := alter_see _ _ _ _ (fun e => by
        have := e.length_le; simp at this; omega)
      exfalso
      apply hs
      cases hg : get (alter (fun _ => none) t (p' ++ [c])) p' with
      | none => rw [← see_none, List.append_assoc, get_append, hg, get_none]
      | some n =>
        cases n with
        | dir m es =>
          exfalso
          have : see t p' = some (.dir m) := by rw [← hs', ← see_dir]; exact ⟨es, hg⟩
          obtain ⟨es', he⟩ := see_dir.2 this
          exact hh (hasDir_snoc he c)
        | file b m => rw [← see_none, List.append_assoc, get_append, hg]; exact get_leaf rfl _ _
        | link s => rw [← see_none, List.append_assoc, get_append, hg]; exact get_leaf rfl _ _
  · rw [alter_see _ _ _ _ hq]
    exact ⟨fun _ => rfl, id⟩

theorem alter_gone {t : Tree} {p q : Path} (hh : HasDir t p) (hq : p <+: q) : see (alter (fun _ => none) t p) q = none := by
  obtain ⟨r, rfl⟩ := hq
  unfold see
  rw [alter_below _ _ _ _ hh, get_none]; rfl

variable {h}

theorem noLinks_of_get {t : Tree} {p : Path} {n : Node} (hg : get t p = some n) (hn : ∀ s, n ≠ .link s) : NoLinks t p := by
  intro q hq s hs
  by_cases he : q = p
  · subst he
    rw [hs] at hg
    cases hg
    exact hn s rfl
  · obtain ⟨m, es, hd⟩ := prefix_dir hg hq he
    rw [hd] at hs; cases hs

theorem Ready.noLinks {t : Tree} {p : Path} {d : Nat} (hr : Ready h t p d) : NoLinks t p := by
  obtain ⟨m, es, hg⟩ := hr.dir
  exact noLinks_of_get hg (fun s e => by cases e)

theorem Ready.name {t : Tree} {p : Path} {d : Nat} (hr : Ready h t p d) : ∀ c ∈ p, Name c := fun c hc => (hr.plain c hc).1

theorem Ready.locate {t : Tree} {p : Path} {d : Nat} (hr : Ready h t p d) : locate h t (text p) = .ok p := by
  obtain ⟨m, es, hg⟩ := hr.dir
  exact locate_there hr.ne hr.name hr.noLinks hg (by have := hr.steps; omega)

theorem Ready.snoc {t : Tree} {p : Path} {d : Nat} (hr : Ready h t p d) : ∃ q c, p = q ++ [c] := by
  rcases List.eq_nil_or_concat p with e | ⟨q, c, e⟩
  · exact absurd e hr.ne
  · exact ⟨q, c, by rw [e, List.concat_eq_append]⟩

theorem Ready.place {t : Tree} {p : Path} {d : Nat} (hr : Ready h t p d) : place h t (text p) = .ok p := by
  obtain ⟨q, c, rfl⟩ := hr.snoc
  obtain ⟨m, es, hg⟩ := hr.dir
  obtain ⟨m', es', hq⟩ := prefix_dir hg (q := q) (List.prefix_append _ _) (by simp)
  have hs := hr.steps
  simp only [List.length_append, List.length_singleton] at hs
  exact place_there (fun d hd => hr.name d (by simp [hd])) (hr.name c (by simp)) (noLinks_prefix hr.noLinks (List.prefix_append _ _)) hq (by omega)

/-- A child's place. -/
theorem Ready.placeChild {t : Tree} {p : Path} {d : Nat} (hr : Ready h t p d) {c : Str} (hc : Name c) : Files.place h t (text (p ++ [c])) = .ok (p ++ [c]) := by
  obtain ⟨m, es, hg⟩ := hr.dir
  exact place_there hr.name hc hr.noLinks hg (by have := hr.steps; omega)

theorem ready_shrinks {t t' : Tree} {p : Path} {d : Nat} (hr : Ready h t p d) {S : Path → Prop} (hs : Shrinks S t t') (hp : ¬ S p) : Ready h t' p d where
  ne := hr.ne
  plain := hr.plain
  dir := by
    obtain ⟨m, es, hg⟩ := hr.dir
    have : see t' p = some (.dir m) := ((hs p).1 hp).trans (see_dir.1 ⟨es, hg⟩)
    obtain ⟨es', he⟩ := see_dir.2 this
    exact ⟨m, es', he⟩
  below := fun q hq => hr.below q (fun e => (hs (p ++ q)).2 (fun e' => hq (see_none.2 e')) (see_none.1 e))
  steps := hr.steps

theorem ready_child {t : Tree} {p : Path} {d : Nat} (hr : Ready h t p (d + 1)) {c : Str} {m : Nat} {es : List (Str × Node)} (hg : get t (p ++ [c]) = some (.dir m es)) :
    Ready h t (p ++ [c]) d where
  ne := by simp
  plain := by
    have := (hr.below [c] (by rw [hg]; simp)).1
    intro x hx
    rcases List.mem_append.1 hx with hx | hx
    · exact hr.plain x hx
    · exact this x hx
  dir := ⟨m, es, hg⟩
  below := by
    intro q hq
    have := hr.below (c :: q) (by simpa using hq)
    refine ⟨fun x hx => this.1 x (by simp [hx]), by have := this.2; simp at this; omega⟩
  steps := by have := hr.steps; simp; omega

/-! ### The loop -/

/-- What the recursive call must do for a child directory. -/
def Removes (k : Path → Prop) (p : Path) (t : Tree) (r : Option (Bool × Tree)) : Prop :=
  ∀ b t', r = some (b, t') → Shrinks k t t' ∧ (b = true → ∀ q, p <+: q → see t' q = none)

theorem removeFile_spec {t : Tree} {p : Path} {d : Nat} (hr : Ready h t p d) {c : Str} (hc : Name c) :
    Shrinks (p ++ [c] <+: ·) t (removeFile h t (text (p ++ [c]))).2 ∧
    ((removeFile h t (text (p ++ [c]))).1 = true → ∀ q, p ++ [c] <+: q → see (removeFile h t (text (p ++ [c]))).2 q = none) ∧
    ((∀ m es, get t (p ++ [c]) ≠ some (.dir m es)) → (∀ t q, h.may .unlink t q = true) → (removeFile h t (text (p ++ [c]))).1 = true) := by
  have hp := hr.placeChild hc
  obtain ⟨m, es, hd⟩ := hr.dir
  have hh := hasDir_snoc hd c
  cases hg : get t (p ++ [c]) with
  | none =>
    have e : removeFile h t (text (p ++ [c])) = (true, t) := by unfold removeFile unlink; simp only [hp, hg]
    rw [e]
    exact ⟨shrinks_refl _ t, fun _ q hq => see_below_none hg hq, fun _ _ => rfl⟩
  | some n =>
    cases n with
    | dir m es =>
      have e : removeFile h t (text (p ++ [c])) = (false, t) := by unfold removeFile unlink; simp only [hp, hg]
      rw [e]
      exact ⟨shrinks_refl _ t, fun e => (by cases e), fun e _ => absurd rfl (e m es)⟩
    | file b m =>
      by_cases hm : h.may .unlink t (p ++ [c]) = true
      · have e : removeFile h t (text (p ++ [c])) = (true, alter (fun _ => none) t (p ++ [c])) := by unfold removeFile unlink; simp only [hp, hg, hm, if_true]
        rw [e]
        exact ⟨alter_drop t _, fun _ q hq => alter_gone hh hq, fun _ _ => rfl⟩
      · have e : removeFile h t (text (p ++ [c])) = (false, t) := by unfold removeFile unlink; simp [hp, hg, hm]
        rw [e]
        exact ⟨shrinks_refl _ t, fun e => (by cases e), fun _ e => absurd (e t _) hm⟩
    | link s =>
      by_cases hm : h.may .unlink t (p ++ [c]) = true
      · have e : removeFile h t (text (p ++ [c])) = (true, alter (fun _ => none) t (p ++ [c])) := by unfold removeFile unlink; simp only [hp, hg, hm, if_true]
        rw [e]
        exact ⟨alter_drop t _, fun _ q hq => alter_gone hh hq, fun _ _ => rfl⟩
      · have e : removeFile h t (text (p ++ [c])) = (false, t) := by unfold removeFile unlink; simp [hp, hg, hm]
        rw [e]
        exact ⟨shrinks_refl _ t, fun e => (by cases e), fun _ e => absurd (e t _) hm⟩

/-- The test of the loop: a directory that is not a link. -/
theorem loop_test {t : Tree} {p : Path} {d : Nat} (hr : Ready h t p d) {c : Str} (hc : Name c) (hb : '\\' ∉ c) :
    (fileIsDirectory h t (text (p ++ [c])) && !fileIsSymlink h t (text (p ++ [c]))) = true ↔ ∃ m es, get t (p ++ [c]) = some (.dir m es) := by
  have hp := hr.placeChild hc
  have hn : ∀ x ∈ p ++ [c], Name x := by
    intro x hx
    rcases List.mem_append.1 hx with hx | hx
    · exact hr.name x hx
    · rw [List.mem_singleton] at hx; subst hx; exact hc
  have hsteps := hr.steps
  have hsl : fileIsSymlink h t (text (p ++ [c])) = match get t (p ++ [c]) with | some (.link _) => true | _ => false := by
    unfold fileIsSymlink lstat
    simp only [hp]
    rfl
  rw [hsl]
  cases hg : get t (p ++ [c]) with
  | none =>
    have : fileIsDirectory h t (text (p ++ [c])) = false := by
      unfold fileIsDirectory
      rw [stripOne_text hc hb]
      unfold stat
      cases hl : locate h t (text (p ++ [c])) with
      | error e => simp
      | ok r =>
        have hnl : NoLinks t (p ++ [c]) := by
          intro q hq s hs
          rcases List.prefix_concat_iff.1 hq with rfl | hq
          · rw [hg] at hs; cases hs
          · exact hr.noLinks q hq s hs
        have := locate_plain (by simp) hn hnl hl
        subst this
        simp [hg]
    rw [this]; simp
  | some n =>
    cases n with
    | link s => simp
    | file b m =>
      have hl := locate_there (h := h) (by simp) hn (noLinks_of_get hg (fun s e => by cases e)) hg (by simp; obtain ⟨m', es', hd⟩ := hr.dir; have := (hr.below [c] (by rw [hg]; simp)).2; simp at this; omega)
      have : fileIsDirectory h t (text (p ++ [c])) = false := by
        unfold fileIsDirectory
        rw [stripOne_text hc hb]
        unfold stat
        rw [hl]; simp [hg, Node.isDir]
      rw [this]; simp
    | dir m es =>
      have hl := locate_there (h := h) (by simp) hn (noLinks_of_get hg (fun s e => by cases e)) hg (by simp; have := (hr.below [c] (by rw [hg]; simp)).2; simp at this; omega)
      have : fileIsDirectory h t (text (p ++ [c])) = true := by
        unfold fileIsDirectory
        rw [stripOne_text hc hb]
        unfold stat
        rw [hl]; simp [hg, text_ne, Node.isDir]
      rw [this]; simp

theorem each_spec {rec : Tree → Str → Option (Bool × Tree)} {p : Path} {d : Nat}
    (hrec : ∀ t c m es, Ready h t p d → get t (p ++ [c]) = some (.dir m es) → Removes (p ++ [c] <+: ·) (p ++ [c]) t (rec t (text (p ++ [c])))) :
    ∀ (l : List Str) (t : Tree), Ready h t p d → (∀ c ∈ l, c ≠ c!"." → c ≠ c!".." → Name c ∧ '\\' ∉ c) → ∀ b t', removeEach h rec (text p) t l = some (b, t') →
      Shrinks (fun q => p <+: q ∧ q ≠ p) t t' ∧ (b = true → ∀ c ∈ l, c ≠ c!"." → c ≠ c!".." → see t' (p ++ [c]) = none) := by
  intro l
  induction l with
  | nil =>
    intro t _ _ b t' hres
    simp only [removeEach, Option.some.injEq, Prod.mk.injEq] at hres
    obtain ⟨_, rfl⟩ := hres
    exact ⟨shrinks_refl _ t, fun _ c hc => (by cases hc)⟩
  | cons c l ih =>
    intro t hr hl b t' hres
    unfold removeEach at hres
    by_cases hd : c = c!"." ∨ c = c!".."
    · rw [if_pos hd] at hres
      obtain ⟨i1, i2⟩ := ih t hr (fun x hx => hl x (by simp [hx])) b t' hres
      refine ⟨i1, fun hb x hx h1 h2 => ?_⟩
      rcases List.mem_cons.1 hx with rfl | hx
      · rcases hd with e | e
        · exact absurd e h1
        · exact absurd e h2
      · exact i2 hb x hx h1 h2
    · rw [if_neg hd] at hres
      simp only [not_or] at hd
      obtain ⟨hc, hbs⟩ := hl c (by simp) hd.1 hd.2
      rw [show text p ++ '/' :: c = text (p ++ [c]) from (text_snoc p c).symm] at hres
      have hstep : ∃ r, (if fileIsDirectory h t (text (p ++ [c])) && !fileIsSymlink h t (text (p ++ [c])) then rec t (text (p ++ [c]))
          else some (removeFile h t (text (p ++ [c])))) = r ∧ Removes (p ++ [c] <+: ·) (p ++ [c]) t r := by
        refine ⟨_, rfl, ?_⟩
        by_cases ht : (fileIsDirectory h t (text (p ++ [c])) && !fileIsSymlink h t (text (p ++ [c]))) = true
        · rw [if_pos ht]
          obtain ⟨m, es, hg⟩ := (loop_test hr hc hbs).1 ht
          exact hrec t c m es hr hg
        · rw [if_neg ht]
          intro b t' he
          obtain ⟨s1, s2, _⟩ := removeFile_spec hr hc
          rw [Option.some.injEq] at he
          rw [he] at s1 s2
          exact ⟨s1, s2⟩
      obtain ⟨r, e, hrem⟩ := hstep
      rw [e] at hres
      have hsub : ∀ q : Path, p ++ [c] <+: q → p <+: q ∧ q ≠ p := by
        intro q hq
        refine ⟨(List.prefix_append _ _).trans hq, ?_⟩
        rintro rfl
        have := hq.length_le
        simp at this; omega
      cases r with
      | none => cases hres
      | some x =>
        obtain ⟨b1, t1⟩ := x
        obtain ⟨s1, s2⟩ := hrem b1 t1 rfl
        cases b1 with
        | false =>
          simp only [Option.some.injEq, Prod.mk.injEq] at hres
          obtain ⟨rfl, rfl⟩ := hres
          exact ⟨shrinks_mono hsub s1, fun e => (by cases e)⟩
        | true =>
          simp only at hres
          have hr1 : Ready h t1 p d := ready_shrinks hr s1 (fun hq => by
            have := hq.length_le
            simp at this; omega)
          obtain ⟨i1, i2⟩ := ih t1 hr1 (fun x hx => hl x (by simp [hx])) b t' hres
          refine ⟨shrinks_trans (shrinks_mono hsub s1) i1, fun hb x hx h1 h2 => ?_⟩
          rcases List.mem_cons.1 hx with rfl | hx
          · by_cases hn : see t' (p ++ [x]) = none
            · exact hn
            · exact absurd (s2 rfl _ (List.prefix_refl _)) ((i1 _).2 hn)
          · exact i2 hb x hx h1 h2

theorem each_live {rec : Tree → Str → Option (Bool × Tree)} {p : Path} {d : Nat}
    (hrec : ∀ t c m es, Ready h t p d → get t (p ++ [c]) = some (.dir m es) → Removes (p ++ [c] <+: ·) (p ++ [c]) t (rec t (text (p ++ [c]))))
    (hlive : ∀ t c m es, Ready h t p d → get t (p ++ [c]) = some (.dir m es) → ∃ t', rec t (text (p ++ [c])) = some (true, t')) (hm : ∀ t q, h.may .unlink t q = true) :
    ∀ (l : List Str) (t : Tree), Ready h t p d → (∀ c ∈ l, c ≠ c!"." → c ≠ c!".." → Name c ∧ '\\' ∉ c) → ∃ t', removeEach h rec (text p) t l = some (true, t') := by
  intro l
  induction l with
  | nil => intro t _ _; exact ⟨t, rfl⟩
  | cons c l ih =>
    intro t hr hl
    unfold removeEach
    by_cases hd : c = c!"." ∨ c = c!".."
    · rw [if_pos hd]
      exact ih t hr (fun x hx => hl x (by simp [hx]))
    · rw [if_neg hd]
      simp only [not_or] at hd
      obtain ⟨hc, hbs⟩ := hl c (by simp) hd.1 hd.2
      rw [show text p ++ '/' :: c = text (p ++ [c]) from (text_snoc p c).symm]
      have hstep : ∃ t1, (if fileIsDirectory h t (text (p ++ [c])) && !fileIsSymlink h t (text (p ++ [c])) then rec t (text (p ++ [c]))
          else some (removeFile h t (text (p ++ [c])))) = some (true, t1) ∧ Shrinks (p ++ [c] <+: ·) t t1 := by
        by_cases ht : (fileIsDirectory h t (text (p ++ [c])) && !fileIsSymlink h t (text (p ++ [c]))) = true
        · rw [if_pos ht]
          obtain ⟨m, es, hg⟩ := (loop_test hr hc hbs).1 ht
          obtain ⟨t1, h1⟩ := hlive t c m es hr hg
          exact ⟨t1, h1, (hrec t c m es hr hg true t1 h1).1⟩
        · rw [if_neg ht]
          obtain ⟨s1, _, s3⟩ := removeFile_spec hr hc
          have := s3 (fun m es hg => ht ((loop_test hr hc hbs).2 ⟨m, es, hg⟩)) hm
          exact ⟨_, by rw [← this], s1⟩
      obtain ⟨t1, e, s1⟩ := hstep
      rw [e]
      simp only
      exact ih t1 (ready_shrinks hr s1 (fun hq => by
        have := hq.length_le
        simp at this; omega)) (fun x hx => hl x (by simp [hx]))

/-! ### The whole -/

theorem mem_find {es : List (Str × Node)} {c : Str} : c ∈ es.map Prod.fst ↔ find es c ≠ none := by
  induction es with
  | nil => simp [find_nil]
  | cons e es ih =>
    rw [List.map_cons, List.mem_cons, ih, find_cons]
    by_cases he : e.1 = c
    · simp [he]
    · have : ¬ c = e.1 := fun x => he x.symm
      simp [he, this]

theorem unprotect_spec {t : Tree} {p : Path} {d : Nat} (hr : Ready h t p d) : Ready h (unprotect h t (text p)) p d ∧ Shrinks (p <+: ·) t (unprotect h t (text p)) := by
  have hl := hr.locate
  obtain ⟨m, es, hg⟩ := hr.dir
  have hcases : unprotect h t (text p) = t ∨ ∃ m', unprotect h t (text p) = alter (setMode m') t p := by
    unfold unprotect getPermissions
    cases hs : (stat h t (text p)).map Node.mode with
    | none => exact .inl rfl
    | some m0 =>
      simp only
      unfold setPermissions
      split
      · exact .inl rfl
      · unfold chmod
        rw [hl]
        simp only [hg]
        by_cases hm : h.may .chmod t p = true
        · right; exact ⟨m0 ||| 0o200, by simp [hm]⟩
        · left; simp [hm]
  rcases hcases with e | ⟨m', e⟩
  · rw [e]; exact ⟨hr, shrinks_refl _ t⟩
  · rw [e]
    have hh := hasDir_of_get hg
    have hat : get (alter (setMode m') t p) p = some (.dir m' es) := by rw [alter_at _ _ _ hh, hg]; rfl
    have hbelow : ∀ q, get (alter (setMode m') t p) (p ++ q) ≠ none → get t (p ++ q) ≠ none := by
      intro q hq
      rw [get_append, hat] at hq
      rw [get_append, hg]
      cases q with
      | nil => simp
      | cons c q => rw [get_dir] at hq ⊢; exact hq
    refine ⟨⟨hr.ne, hr.plain, ⟨m', es, hat⟩, fun q hq => hr.below q (hbelow q hq), hr.steps⟩, ?_⟩
    intro q
    by_cases hq : p <+: q
    · obtain ⟨r, rfl⟩ := hq
      refine ⟨fun x => absurd (List.prefix_append _ _) x, fun hs => ?_⟩
      exact fun e => hbelow r (fun e' => hs (see_none.1 e')) (see_none.2 e)
    · rw [alter_see _ _ _ _ hq]
      exact ⟨fun _ => rfl, id⟩

theorem readdir_names {t : Tree} {p : Path} {d : Nat} (hr : Ready h t p d) : ∀ c ∈ readdir h t (text p), c ≠ c!"." → c ≠ c!".." → Name c ∧ '\\' ∉ c := by
  intro c hc h1 h2
  obtain ⟨m, es, hg⟩ := hr.dir
  unfold readdir at hc
  rw [hr.locate] at hc
  simp only [hg] at hc
  split at hc
  · rcases List.mem_cons.1 hc with rfl | hc
    · exact absurd rfl h1
    · rcases List.mem_cons.1 hc with rfl | hc
      · exact absurd rfl h2
      · have := mem_find.1 hc
        have hb := (hr.below [c] (by rw [get_append, hg, get_dir, get_nil]; exact this)).1
        exact hb c (by simp)
  · cases hc

theorem rmdir_spec {t : Tree} {p : Path} {d : Nat} (hr : Ready h t p d) :
    (∀ t', rmdir h t (text p) = .ok t' → t' = alter (fun _ => none) t p) ∧
    ((∀ m es, get t p = some (.dir m es) → es = []) → h.may .rmdir t p = true → ∃ t', rmdir h t (text p) = .ok t') := by
  have hp := hr.place
  obtain ⟨m, es, hg⟩ := hr.dir
  constructor
  · intro t' hm
    unfold rmdir at hm
    simp only [hp, hg] at hm
    cases es with
    | nil =>
      simp only at hm
      split at hm
      · cases hm; rfl
      · cases hm
    | cons e es => cases hm
  · intro he hm
    have : es = [] := he m es hg
    subst this
    exact ⟨alter (fun _ => none) t p, by unfold rmdir; simp only [hp, hg, hm, if_true]⟩

theorem remove_spec : ∀ (k : Nat) (t : Tree) (p : Path) (d : Nat), Ready h t p d → Removes (p <+: ·) p t (removeADirectory h k t (text p)) := by
  intro k
  induction k with
  | zero => intro t p d _ b t' hres; cases hres
  | succ k ih =>
    intro t p d hr b t' hres
    obtain ⟨hr0, s0⟩ := unprotect_spec hr
    have hrec : ∀ t c m es, Ready h t p d → get t (p ++ [c]) = some (.dir m es) → Removes (p ++ [c] <+: ·) (p ++ [c]) t (removeADirectory h k t (text (p ++ [c]))) := by
      intro t c m es hr hg
      cases d with
      | zero =>
        have := (hr.below [c] (by rw [hg]; simp)).2
        simp at this
      | succ d => exact ih t (p ++ [c]) d (ready_child hr hg)
    unfold removeADirectory at hres
    cases he : removeEach h (removeADirectory h k) (text p) (unprotect h t (text p)) (readdir h (unprotect h t (text p)) (text p)) with
    | none => rw [he] at hres; cases hres
    | some x =>
      obtain ⟨b1, t1⟩ := x
      obtain ⟨s1, _⟩ := each_spec hrec _ _ hr0 (readdir_names hr0) b1 t1 he
      have s01 : Shrinks (p <+: ·) t t1 := shrinks_trans s0 (shrinks_mono (fun q hq => hq.1) s1)
      rw [he] at hres
      cases b1 with
      | false =>
        simp only [Option.some.injEq, Prod.mk.injEq] at hres
        obtain ⟨rfl, rfl⟩ := hres
        exact ⟨s01, fun e => (by cases e)⟩
      | true =>
        have hr1 : Ready h t1 p d := ready_shrinks hr0 s1 (fun x => x.2 rfl)
        obtain ⟨r1, _⟩ := rmdir_spec hr1
        simp only at hres
        cases hd : rmdir h t1 (text p) with
        | error e =>
          rw [hd] at hres
          simp only [Option.some.injEq, Prod.mk.injEq] at hres
          obtain ⟨rfl, rfl⟩ := hres
          exact ⟨s01, fun e => (by cases e)⟩
        | ok t2 =>
          rw [hd] at hres
          simp only [Option.some.injEq, Prod.mk.injEq] at hres
          obtain ⟨rfl, rfl⟩ := hres
          have := r1 _ hd
          subst this
          obtain ⟨m, es, hg⟩ := hr1.dir
          exact ⟨shrinks_trans s01 (alter_drop t1 p), fun _ q hq => alter_gone (hasDir_of_get hg) hq⟩

theorem remove_live (hmay : ∀ c t q, h.may c t q = true) : ∀ (k : Nat) (t : Tree) (p : Path) (d : Nat), Ready h t p d → d < k →
    ∃ t', removeADirectory h k t (text p) = some (true, t') := by
  intro k
  induction k with
  | zero => intro t p d _ hd; omega
  | succ k ih =>
    intro t p d hr hdk
    obtain ⟨hr0, s0⟩ := unprotect_spec hr
    have child : ∀ t c m es, Ready h t p d → get t (p ++ [c]) = some (.dir m es) → ∃ d', d = d' + 1 ∧ Ready h t (p ++ [c]) d' := by
      intro t c m es hr hg
      cases d with
      | zero =>
        have := (hr.below [c] (by rw [hg]; simp)).2
        simp at this
      | succ d => exact ⟨d, rfl, ready_child hr hg⟩
    have hrec : ∀ t c m es, Ready h t p d → get t (p ++ [c]) = some (.dir m es) → Removes (p ++ [c] <+: ·) (p ++ [c]) t (removeADirectory h k t (text (p ++ [c]))) := by
      intro t c m es hr hg
      obtain ⟨d', _, hc⟩ := child t c m es hr hg
      exact remove_spec k t (p ++ [c]) d' hc
    have hlive : ∀ t c m es, Ready h t p d → get t (p ++ [c]) = some (.dir m es) → ∃ t', removeADirectory h k t (text (p ++ [c])) = some (true, t') := by
      intro t c m es hr hg
      obtain ⟨d', e, hc⟩ := child t c m es hr hg
      exact ih t (p ++ [c]) d' hc (by omega)
    obtain ⟨t1, he⟩ := each_live hrec hlive (hmay _) (readdir h (unprotect h t (text p)) (text p)) _ hr0 (readdir_names hr0)
    obtain ⟨s1, g1⟩ := each_spec hrec _ _ hr0 (readdir_names hr0) true t1 he
    have hr1 : Ready h t1 p d := ready_shrinks hr0 s1 (fun x => x.2 rfl)
    obtain ⟨_, r2⟩ := rmdir_spec hr1
    obtain ⟨t2, hd⟩ := r2 (by
      intro m es hg
      cases es with
      | nil => rfl
      | cons e es =>
        exfalso
        have hx : find (e :: es) e.1 ≠ none := mem_find.1 (by simp)
        have hgx : get t1 (p ++ [e.1]) ≠ none := by rw [get_append, hg, get_dir, get_nil]; exact hx
        have hs1 : see t1 (p ++ [e.1]) ≠ none := fun e' => hgx (see_none.2 e')
        have hs0 := (s1 _).2 hs1
        obtain ⟨m0, es0, hg0⟩ := hr0.dir
        have hg0x : get (unprotect h t (text p)) (p ++ [e.1]) ≠ none := fun e' => hs0 (see_none.1 e')
        have hpl := (hr0.below [e.1] hg0x).1 e.1 (by simp)
        rw [get_append, hg0, get_dir, get_nil, ← mem_find] at hg0x
        apply hs1
        apply g1 rfl e.1
        · unfold readdir
          rw [hr0.locate]
          simp only [hg0, hmay, if_true]
          simp only [List.mem_cons]
          exact .inr (.inr hg0x)
        · exact hpl.1.2.1
        · exact hpl.1.2.2.1) (hmay _ _ _)
    exact ⟨t2, by unfold removeADirectory; rw [he]; simp only [hd]⟩

/-- C186. RemoveADirectory, for a directory reached without symbolic links: whatever happens, nothing outside of it changes (symbolic links inside are not followed),
nothing new appears, and if it returns true nothing is left at or below the path; it returns true if all calls are permitted.
`hbelow`: the names below are not empty, `.`, `..`, and hold no slash or backslash. -/
theorem C186_remove_partial (t : Tree) (p : Path) (d : Nat) (hne : p ≠ []) (hp : Plain p) (hdir : ∃ m es, get t p = some (.dir m es))
    (hbelow : ∀ q, get t (p ++ q) ≠ none → Plain q ∧ q.length ≤ d) (hs : p.length + d + 1 < h.steps) :
    (∀ k b t', removeADirectory h k t (text p) = some (b, t') →
      (∀ q, ¬ p <+: q → see t' q = see t q) ∧ (∀ q, see t q = none → see t' q = none) ∧ (b = true → ∀ q, p <+: q → see t' q = none)) ∧
    ((∀ c t q, h.may c t q = true) → ∀ k, d < k → ∃ t', removeADirectory h k t (text p) = some (true, t')) := by
  have hr : Ready h t p d := ⟨hne, hp, hdir, hbelow, hs⟩
  refine ⟨fun k b t' hres => ?_, fun hmay k hk => remove_live hmay k t p d hr hk⟩
  obtain ⟨s1, s2⟩ := remove_spec k t p d hr b t' hres
  refine ⟨fun q hq => (s1 q).1 hq, fun q hq => ?_, s2⟩
  by_cases hx : see t' q = none
  · exact hx
  · exact absurd hq ((s1 q).2 hx)

def linked : Tree := some (.dir 0o755 [(c!"keep", .dir 0o755 [(c!"f", .file [7] 0o644)]), (c!"l", .link (c!"/keep")),
  (c!"d", .dir 0o500 [(c!"x", .file [1] 0o644), (c!"m", .link (c!"../keep")), (c!"e", .dir 0o755 [(c!"y", .file [] 0o600)])])])

example : (removeADirectory {} 5 linked (c!"/d")).map (fun r => (r.1, see r.2 [c!"d"], see r.2 [c!"d", c!"x"], see r.2 [c!"keep", c!"f"])) =
    some (true, none, none, some (.file [7] 0o644)) := by decide +kernel

/-- C186, the full statement also for a path that is itself a symbolic link, is false: the directory the link leads to is emptied, and false is returned. -/
theorem C186_refuted : (removeADirectory {} 5 linked (c!"/l")).map (fun r => (r.1, see r.2 [c!"l"], see r.2 [c!"keep"], see r.2 [c!"keep", c!"f"])) =
    some (false, some (.link (c!"/keep")), some (.dir 0o755), none) := by decide +kernel

/-- A name that ends with a backslash is not removed, although all calls are permitted: the test for a directory looks at another name. -/
theorem C186_backslash : (removeADirectory {} 5 (some (.dir 0o755 [(c!"d", .dir 0o755 [(c!"x\\", .file [] 0o644), (c!"x", .dir 0o755 [])])])) (c!"/d")).map
    (fun r => (r.1, see r.2 [c!"d"])) = some (false, some (.dir 0o755)) := by decide +kernel

end Vital.Files
