import Verif.Files.Copy
/-
  CopyADirectory of vital/kwiversys/SystemTools.cxx on the file system of `Tree.lean`.
-/
namespace Vital.Files
open Vital

variable (h : Host)

-- models: vital/kwiversys/SystemTools.cxx:2498-2509 (CopyAFile)
def copyAFile (always : Bool) (t : Tree) (src dst : Str) : Bool × Tree := if always then copyFileAlways h t src dst else copyFileIfDifferent h t src dst

-- models: vital/kwiversys/SystemTools.cxx:2530-2557 (the loop over the names; `rec` is the recursive call)
def copyEach (always : Bool) (rec : Tree → Str → Str → Option (Bool × Tree)) (s d : Str) : Tree → List Str → Option (Bool × Tree)
  | t, [] => some (true, t)
  | t, c :: cs =>
    if c = c!"." ∨ c = c!".." then copyEach always rec s d t cs
    else if fileIsDirectory h t (s ++ '/' :: c) then match rec t (s ++ '/' :: c) (d ++ '/' :: c) with
      | some (true, t') => copyEach always rec s d t' cs
      | o => o
    else
      let r := copyAFile h always t (s ++ '/' :: c) d
      if r.1 then copyEach always rec s d r.2 cs else some r

-- models: vital/kwiversys/SystemTools.cxx:2515-2560 (CopyADirectory); the first argument bounds the depth
def copyADirectory (always : Bool) : Nat → Tree → Str → Str → Option (Bool × Tree)
  | 0, _, _, _ => none
  | k + 1, t, s, d =>
    let names := readdir h t s
    let r := makeDirectory h t d
    if r.1 then copyEach h always (copyADirectory always k) s d r.2 names else some r

variable {h}

/-- The conditions under which a directory can be copied: the source `S` is a directory of depth at most `e`, without symbolic links, whose directories can be read; the destination `D`
is apart from it; nothing but directories stands on the way to `D`; where both have something, both have a file or both have a directory.
(`colon`: GetFilenamePath takes "/:" for a drive; `steps`: path look-ups are not cut off.) -/
structure CanCopy (h : Host) (t : Tree) (S D : Path) (e : Nat) : Prop where
  neS : S ≠ []
  neD : D ≠ []
  plainS : Plain S
  plainD : Plain D
  colon : D ≠ [c!":"] ∧ D.dropLast ≠ [c!":"]
  apart : ¬ S <+: D ∧ ¬ D <+: S
  dirS : ∃ m, see t S = some (.dir m)
  belowS : ∀ y, see t (S ++ y) ≠ none → Plain y ∧ y.length ≤ e ∧ ∀ l, see t (S ++ y) ≠ some (.link l)
  readS : ∀ y m, see t (S ++ y) = some (.dir m) → ∀ t', h.may .read t' (S ++ y) = true
  free : Free t D
  compat : ∀ y, (∀ b m, see t (S ++ y) = some (.file b m) → ∀ o, see t (D ++ y) = some o → ∃ b m, o = .file b m) ∧
    (∀ m, see t (S ++ y) = some (.dir m) → ∀ o, see t (D ++ y) = some o → ∃ m, o = .dir m)
  steps : S.length + D.length + 2 * e + 6 < h.steps

/-- Where the source has a file or a directory, the destination has it too. -/
def Match (always : Bool) (S D : Path) (t t' : Tree) (y : Path) : Prop :=
  (∀ b m, see t (S ++ y) = some (.file b m) → ∃ m', see t' (D ++ y) = some (.file b m') ∧ (always = true → m' = m)) ∧
  (∀ m, see t (S ++ y) = some (.dir m) → ∃ m', see t' (D ++ y) = some (.dir m'))

/-- Only what has a counterpart in the source changes, and directories on the way may be new. -/
def Eff (h : Host) (S D : Path) (t t' : Tree) : Prop := ∀ x, see t' x = see t x ∨ (∃ y, y ≠ [] ∧ x = D ++ y ∧ see t (S ++ y) ≠ none) ∨
  (x <+: D ∧ see t x = none ∧ see t' x = some (.dir h.dirMode))

theorem see_get {t : Tree} {x : Path} {b : List Nat} {m : Nat} : see t x = some (.file b m) ↔ get t x = some (.file b m) := by
  unfold see
  cases get t x with
  | none => simp
  | some n => cases n <;> simp [Node.obs]

theorem apart_ne {S D : Path} (ha : ¬ S <+: D ∧ ¬ D <+: S) (x y : Path) : S ++ x ≠ D ++ y := by
  intro e
  rcases List.prefix_or_prefix_of_prefix (show S <+: S ++ x from List.prefix_append _ _) (show D <+: S ++ x from e ▸ List.prefix_append _ _) with h1 | h1
  · exact ha.1 h1
  · exact ha.2 h1

theorem free_noLinks {t : Tree} {p : Path} (hf : Free t p) : NoLinks t p := by
  intro q hq s hs
  rcases hf q hq with e | ⟨m, es, e⟩ <;> (rw [hs] at e; cases e)

theorem CanCopy.getS {t : Tree} {S D : Path} {e : Nat} (hr : CanCopy h t S D e) : ∃ m es, get t S = some (.dir m es) := by
  obtain ⟨m, hm⟩ := hr.dirS
  obtain ⟨es, he⟩ := see_dir.2 hm
  exact ⟨m, es, he⟩

theorem CanCopy.root {t : Tree} {S D : Path} {e : Nat} (hr : CanCopy h t S D e) : ∃ m es, get t [] = some (.dir m es) := by
  obtain ⟨m, es, hg⟩ := hr.getS
  exact prefix_dir hg List.nil_prefix (fun e => hr.neS e.symm)

theorem CanCopy.locS {t : Tree} {S D : Path} {e : Nat} (hr : CanCopy h t S D e) {y : Path} (hy : see t (S ++ y) ≠ none) : locate h t (text (S ++ y)) = .ok (S ++ y) := by
  obtain ⟨h1, h2, h3⟩ := hr.belowS y hy
  have hs := hr.steps
  cases hg : get t (S ++ y) with
  | none => exact absurd (see_none.1 hg) hy
  | some n =>
    refine locate_there (by simp [hr.neS]) ?_ (noLinks_of_get hg ?_) hg (by simp; omega)
    · intro c hc
      rcases List.mem_append.1 hc with hc | hc
      · exact (hr.plainS c hc).1
      · exact (h1 c hc).1
    · rintro l rfl
      exact h3 l (see_link.1 hg)

/-- The source is not changed. -/
theorem eff_source {t t' : Tree} {S D : Path} (ha : ¬ S <+: D ∧ ¬ D <+: S) (he : Eff h S D t t') (y : Path) : see t' (S ++ y) = see t (S ++ y) := by
  rcases he (S ++ y) with e | ⟨z, _, e, _⟩ | ⟨e, _⟩
  · exact e
  · exact absurd e (apart_ne ha y z)
  · exact absurd ((List.prefix_append S y).trans e) ha.1

/-! ### One file -/

theorem copy_one {t : Tree} {S D : Path} {e : Nat} (hr : CanCopy h t S D e) (always : Bool) (hd : ∃ m, see t D = some (.dir m)) {c : Str} {b : List Nat} {m : Nat}
    (hc : see t (S ++ [c]) = some (.file b m)) :
    (∀ x, x ≠ D ++ [c] → see (copyAFile h always t (text (S ++ [c])) (text D)).2 x = see t x) ∧
    ((copyAFile h always t (text (S ++ [c])) (text D)).1 = true →
      ∃ m', see (copyAFile h always t (text (S ++ [c])) (text D)).2 (D ++ [c]) = some (.file b m') ∧ (always = true → m' = m)) ∧
    ((∀ c t q, h.may c t q = true) → (copyAFile h always t (text (S ++ [c])) (text D)).1 = true) := by
  have hcn : see t (S ++ [c]) ≠ none := by rw [hc]; simp
  obtain ⟨b1, b2, b3⟩ := hr.belowS [c] hcn
  have hpc : Name c ∧ '\\' ∉ c := b1 c (by simp)
  have hloc := hr.locS hcn
  have hfile := see_get.1 hc
  obtain ⟨q, c', hD⟩ : ∃ q c', D = q ++ [c'] := by
    rcases List.eq_nil_or_concat D with e | ⟨q, c, e⟩
    · exact absurd e hr.neD
    · exact ⟨q, c, by rw [e, List.concat_eq_append]⟩
  have hcol : q ≠ [c!":"] := by have := hr.colon.2; rw [hD] at this; simpa using this
  have hnlD := free_noLinks hr.free
  have hlq : NoLinks t q := noLinks_prefix hnlD (by rw [hD]; exact List.prefix_append _ _)
  have hs := hr.steps
  have hlen : D.length = q.length + 1 := by rw [hD]; simp
  obtain ⟨md, hmd⟩ := hd
  obtain ⟨esd, hgd⟩ := see_dir.2 hmd
  have hcompat := (hr.compat [c]).1 b m hc
  have hneq : S ++ [c] ≠ D ++ [c] := apart_ne hr.apart _ _
  have hU : (∃ s, get t (D ++ [c]) = some (.link s)) ∨ S ++ [c] = D ++ [c] → ∀ t', h.may .unlink t' (D ++ [c]) = true := by
    rintro (⟨s, hs⟩ | e)
    · obtain ⟨b', m', e⟩ := hcompat _ (see_link.1 hs)
      cases e
    · exact absurd e hneq
  have hDD : (D ++ [c] = q ++ [c'] ∧ ∀ m es, stat h t (text (q ++ [c'])) ≠ some (.dir m es)) ∨ (D ++ [c] = q ++ [c'] ++ [c] ∧ ∃ m es, get t (q ++ [c']) = some (.dir m es)) := by
    right
    rw [← hD]
    exact ⟨rfl, md, esd, hgd⟩
  have hpD : Plain (q ++ [c']) := by rw [← hD]; exact hr.plainD
  have hDnd : ∀ m es, get t (D ++ [c]) ≠ some (.dir m es) := by
    intro m es hx
    obtain ⟨b', m', e⟩ := hcompat _ (see_dir.1 ⟨es, hx⟩)
    cases e
  have hnl : NoLinks t (D ++ [c]) := by
    intro x hx s hs
    rcases List.prefix_concat_iff.1 hx with e | hx
    · rw [e] at hs
      obtain ⟨b', m', e⟩ := hcompat _ (see_link.1 hs)
      cases e
    · exact hnlD x hx s hs
  have hnames : ∀ d ∈ D ++ [c], Name d := by
    intro d hd
    rcases List.mem_append.1 hd with hd | hd
    · exact (hr.plainD d hd).1
    · rw [List.mem_singleton] at hd; subst hd; exact hpc.1
  have hkeep : ∀ t', (∀ x, x ≠ D ++ [c] → (see t x ≠ none → see t' x = see t x) ∧ (see t x = none → see t' x = none ∨ (x <+: q ∧ see t' x = some (.dir h.dirMode)))) →
      ∀ x, x ≠ D ++ [c] → see t' x = see t x := by
    intro t' ht x hx
    by_cases hxn : see t x = none
    · rcases (ht x hx).2 hxn with e | ⟨hpre, _⟩
      · rw [e, hxn]
      · exfalso
        obtain ⟨m2, es2, h2⟩ := prefix_dir hgd (hpre.trans (by rw [hD]; exact List.prefix_append _ _)) (by rintro rfl; have := hpre.length_le; omega)
        rw [← see_none, h2] at hxn
        cases hxn
    · exact (ht x hx).1 hxn
  obtain ⟨f1, f2, f3⟩ := copy_full (h := h) t S c (S ++ [c]) b m q c' (D ++ [c]) hpc hloc hfile hpD hcol hlq (by omega) hDD hU
  rw [← hD] at f1 f2 f3
  have hsame : sameFile h t (text (S ++ [c])) (text D) = false := by
    unfold sameFile
    rw [hloc, locate_there (h := h) hr.neD (fun d hd => (hr.plainD d hd).1) hnlD hgd (by omega)]
    have : S ++ [c] ≠ D := by simpa using apart_ne hr.apart [c] []
    simp [this]
  have hfreeq : Free t q := fun x hx => hr.free x (hx.trans (by rw [hD]; exact List.prefix_append _ _))
  unfold copyAFile
  cases always with
  | true =>
    simp only [if_true]
    refine ⟨hkeep _ f2, fun e => ?_, fun hm => f3 hr.root hfreeq hDnd hm⟩
    rcases (f1 e).1 with e' | e'
    · rw [hsame] at e'; cases e'
    · exact ⟨m, see_get.2 e', fun _ => rfl⟩
  | false =>
    simp only [Bool.false_eq_true, if_false]
    have hDf : ∀ x, stat h t (text (D ++ [c])) = some x → ∃ b m, x = .file b m := by
      intro x hx
      unfold stat at hx
      cases hl : locate h t (text (D ++ [c])) with
      | error e => rw [hl] at hx; cases hx
      | ok r =>
        rw [hl] at hx
        have := locate_plain (h := h) (by simp) hnames hnl hl
        subst this
        have hx' : get t (D ++ [c]) = some x := hx
        have hso : see t (D ++ [c]) = some x.obs := by unfold see; rw [hx']; rfl
        obtain ⟨b', m', e'⟩ := hcompat _ hso
        cases x <;> simp [Node.obs] at e'
        exact ⟨_, _, rfl⟩
    obtain ⟨g1, g2, g3, g4⟩ := C188_different_partial (h := h) t S c (S ++ [c]) b m q c' (D ++ [c]) hpc hloc hfile hpD hcol hlq (by omega) hDD hU hDf
    rw [← hD] at g1 g2 g3 g4
    refine ⟨hkeep _ g3, fun e => ?_, fun hm => g4 hr.root hfreeq hDnd hm⟩
    refine Exists.imp (fun m' hm' => ⟨hm', fun e => (by cases e)⟩) ?_
    have hcmp : copyFileIfDifferent h t (text (S ++ [c])) (text D) = copyFileAlways h t (text (S ++ [c])) (text D) ∨
        copyFileIfDifferent h t (text (S ++ [c])) (text D) = (true, t) := by
      unfold copyFileIfDifferent
      simp only
      generalize (if fileIsDirectory h t (text D) = true then _ else _ : Str) = z
      split
      · exact .inl rfl
      · exact .inr rfl
    rcases hcmp with e' | e'
    · rw [e'] at e ⊢
      rcases (f1 e).1 with e'' | e''
      · rw [hsame] at e''; cases e''
      · exact ⟨m, see_get.2 e''⟩
    · obtain ⟨m', hst⟩ := g1 e
      rw [e'] at hst ⊢
      refine ⟨m', ?_⟩
      simp only at hst ⊢
      unfold stat at hst
      cases hl : locate h t (text (D ++ [c])) with
      | error e => rw [hl] at hst; cases hst
      | ok r =>
        rw [hl] at hst
        have := locate_plain (h := h) (by simp) hnames hnl hl
        subst this
        exact see_get.2 hst

/-! ### The loop -/

theorem step_ready {t t' : Tree} {S D : Path} {e : Nat} (hr : CanCopy h t S D e) (always : Bool) (hd : ∃ m, see t D = some (.dir m)) {c : Str}
    (he : ∀ x, see t' x = see t x ∨ ∃ y, x = D ++ c :: y ∧ see t (S ++ c :: y) ≠ none) (hm : ∀ y, Match always S D t t' (c :: y)) :
    CanCopy h t' S D e ∧ (∃ m, see t' D = some (.dir m)) ∧ (∀ y, see t' (S ++ y) = see t (S ++ y)) := by
  have hsrc : ∀ y, see t' (S ++ y) = see t (S ++ y) := by
    intro y
    rcases he (S ++ y) with e | ⟨z, e, _⟩
    · exact e
    · exact absurd e (apart_ne hr.apart y _)
  have hup : ∀ x, x <+: D → see t' x = see t x := by
    intro x hx
    rcases he x with e | ⟨z, rfl, _⟩
    · exact e
    · have := hx.length_le; simp at this; omega
  refine ⟨⟨hr.neS, hr.neD, hr.plainS, hr.plainD, hr.colon, hr.apart, ?_, ?_, ?_, ?_, ?_, hr.steps⟩, ?_, hsrc⟩
  · obtain ⟨m, hm⟩ := hr.dirS
    exact ⟨m, by have := hsrc []; simp only [List.append_nil] at this; rw [this, hm]⟩
  · intro y hy
    rw [hsrc] at hy ⊢
    exact hr.belowS y hy
  · intro y m hy
    rw [hsrc] at hy
    exact hr.readS y m hy
  · intro x hx
    rcases hr.free x hx with e | ⟨m, es, e⟩
    · left; rw [see_none, hup x hx, ← see_none]; exact e
    · right
      have := hup x hx
      rw [see_dir.1 ⟨es, e⟩] at this
      obtain ⟨es', e'⟩ := see_dir.2 this
      exact ⟨m, es', e'⟩
  · intro y
    rw [hsrc]
    rcases he (D ++ y) with e | ⟨z, e, hz⟩
    · rw [e]; exact hr.compat y
    · have hy : y = c :: z := List.append_cancel_left e
      subst hy
      obtain ⟨m1, m2⟩ := hm z
      constructor
      · intro b m hx o ho
        obtain ⟨m', h1, _⟩ := m1 b m hx
        rw [h1] at ho; cases ho
        exact ⟨_, _, rfl⟩
      · intro m hx o ho
        obtain ⟨m', h1⟩ := m2 m hx
        rw [h1] at ho; cases ho
        exact ⟨_, rfl⟩
  · obtain ⟨m, hm⟩ := hd
    exact ⟨m, by rw [hup D (List.prefix_refl _), hm]⟩

theorem child_ready {t : Tree} {S D : Path} {e : Nat} (hr : CanCopy h t S D e) (hd : ∃ m, see t D = some (.dir m)) {c : Str} {m : Nat} (hc : see t (S ++ [c]) = some (.dir m)) :
    1 ≤ e ∧ CanCopy h t (S ++ [c]) (D ++ [c]) (e - 1) := by
  obtain ⟨b1, b2, b3⟩ := hr.belowS [c] (by rw [hc]; simp)
  have he : 1 ≤ e := by simpa using b2
  have ea : ∀ (P y : Path), P ++ [c] ++ y = P ++ (c :: y) := fun P y => by simp
  have hs := hr.steps
  refine ⟨he, ⟨by simp, by simp, ?_, ?_, ⟨?_, ?_⟩, ⟨?_, ?_⟩, ⟨m, hc⟩, ?_, ?_, ?_, ?_, by simp; omega⟩⟩
  · intro d hd'
    rcases List.mem_append.1 hd' with h1 | h1
    · exact hr.plainS d h1
    · exact b1 d h1
  · intro d hd'
    rcases List.mem_append.1 hd' with h1 | h1
    · exact hr.plainD d h1
    · exact b1 d h1
  · intro e'
    have h1 := congrArg List.length e'
    have h2 := List.length_pos_iff.2 hr.neD
    simp only [List.length_append, List.length_cons, List.length_nil] at h1
    omega
  · rw [List.dropLast_concat]
    exact hr.colon.1
  · rintro ⟨z, e'⟩
    have := apart_ne hr.apart (c :: z) [c]
    exact this (by rw [← ea, e'])
  · rintro ⟨z, e'⟩
    have := apart_ne hr.apart [c] (c :: z)
    exact this (by rw [← e', ea])
  · intro y hy
    rw [ea] at hy ⊢
    obtain ⟨c1, c2, c3⟩ := hr.belowS _ hy
    refine ⟨fun d hd' => c1 d (by simp [hd']), ?_, c3⟩
    simp at c2; omega
  · intro y m hy
    rw [ea] at hy ⊢
    exact hr.readS _ m hy
  · intro x hx
    rcases List.prefix_concat_iff.1 hx with e' | hx
    · have hcm := (hr.compat [c]).2 m hc
      rw [e']
      cases hg : get t (D ++ [c]) with
      | none => exact .inl rfl
      | some n =>
        right
        obtain ⟨m', e''⟩ := hcm n.obs (by unfold see; rw [hg]; rfl)
        cases n <;> simp [Node.obs] at e''
        exact ⟨_, _, rfl⟩
    · exact hr.free x hx
  · intro y
    rw [ea, ea]
    exact hr.compat _

/-- What the recursive call does. -/
def Spec (h : Host) (always : Bool) (k : Nat) (rec : Tree → Str → Str → Option (Bool × Tree)) : Prop := ∀ t S D e, CanCopy h t S D e →
  (∀ b t', rec t (text S) (text D) = some (b, t') → Eff h S D t t' ∧ (b = true → ∀ y, Match always S D t t' y)) ∧
  ((∀ c t q, h.may c t q = true) → e < k → ∃ t', rec t (text S) (text D) = some (true, t'))

theorem each_copy {always : Bool} {k : Nat} {rec : Tree → Str → Str → Option (Bool × Tree)} (hrec : Spec h always k rec) {S D : Path} {e : Nat} : ∀ (l : List Str) (t : Tree),
    CanCopy h t S D e → (∃ m, see t D = some (.dir m)) → (∀ c ∈ l, c ≠ c!"." → c ≠ c!".." → see t (S ++ [c]) ≠ none) →
    (∀ b t', copyEach h always rec (text S) (text D) t l = some (b, t') →
      (∀ x, see t' x = see t x ∨ ∃ c ∈ l, ∃ y, x = D ++ c :: y ∧ see t (S ++ c :: y) ≠ none) ∧
      (b = true → ∀ c ∈ l, c ≠ c!"." → c ≠ c!".." → ∀ y, Match always S D t t' (c :: y))) ∧
    ((∀ c t q, h.may c t q = true) → e ≤ k → ∃ t', copyEach h always rec (text S) (text D) t l = some (true, t')) := by
  intro l
  induction l with
  | nil =>
    intro t _ _ _
    refine ⟨fun b t' hx => ?_, fun _ _ => ⟨t, rfl⟩⟩
    cases hx
    exact ⟨fun x => .inl rfl, fun _ c hc => absurd hc (by simp)⟩
  | cons c cs ih =>
    intro t hr hd hl
    by_cases hdot : c = c!"." ∨ c = c!".."
    · obtain ⟨i1, i2⟩ := ih t hr hd (fun d hd' => hl d (by simp [hd']))
      have e1 : copyEach h always rec (text S) (text D) t (c :: cs) = copyEach h always rec (text S) (text D) t cs := by rw [copyEach, if_pos hdot]
      rw [e1]
      refine ⟨fun b t' hx => ?_, i2⟩
      obtain ⟨j1, j2⟩ := i1 b t' hx
      refine ⟨fun x => (j1 x).imp_right fun ⟨d, hd', r⟩ => ⟨d, by simp [hd'], r⟩, fun hb d hd' n1 n2 => ?_⟩
      rcases List.mem_cons.1 hd' with rfl | hd'
      · rcases hdot with e' | e'
        · exact absurd e' n1
        · exact absurd e' n2
      · exact j2 hb d hd' n1 n2
    · simp only [not_or] at hdot
      have hcn := hl c (by simp) hdot.1 hdot.2
      obtain ⟨b1, b2, b3⟩ := hr.belowS [c] hcn
      have hpc : Name c ∧ '\\' ∉ c := b1 c (by simp)
      have hloc := hr.locS hcn
      -- the rest of the loop, after a good step to `t1`
      have rest : ∀ t1, (∀ x, see t1 x = see t x ∨ ∃ y, x = D ++ c :: y ∧ see t (S ++ c :: y) ≠ none) → (∀ y, Match always S D t t1 (c :: y)) →
          (∀ b t', copyEach h always rec (text S) (text D) t1 cs = some (b, t') →
            (∀ x, see t' x = see t x ∨ ∃ d ∈ c :: cs, ∃ y, x = D ++ d :: y ∧ see t (S ++ d :: y) ≠ none) ∧
            (b = true → ∀ d ∈ c :: cs, d ≠ c!"." → d ≠ c!".." → ∀ y, Match always S D t t' (d :: y))) ∧
          ((∀ c t q, h.may c t q = true) → e ≤ k → ∃ t', copyEach h always rec (text S) (text D) t1 cs = some (true, t')) := by
        intro t1 he1 hm1
        obtain ⟨r1, d1, s1⟩ := step_ready hr always hd he1 hm1
        obtain ⟨i1, i2⟩ := ih t1 r1 d1 (fun d hd' n1 n2 => by rw [s1]; exact hl d (by simp [hd']) n1 n2)
        refine ⟨fun b t' hx => ?_, i2⟩
        obtain ⟨j1, j2⟩ := i1 b t' hx
        refine ⟨fun x => ?_, fun hb d hd' n1 n2 y => ?_⟩
        · rcases j1 x with e' | ⟨d, hd', y, hy, hz⟩
          · rcases he1 x with e'' | ⟨y, hy, hz⟩
            · exact .inl (e'.trans e'')
            · exact .inr ⟨c, by simp, y, hy, hz⟩
          · exact .inr ⟨d, by simp [hd'], y, hy, by rw [← s1]; exact hz⟩
        · have hms : ∀ d ∈ cs, d ≠ c!"." → d ≠ c!".." → ∀ y, Match always S D t t' (d :: y) := by
            intro d hd' n1 n2 y
            have := j2 hb d hd' n1 n2 y
            unfold Match at this ⊢
            rw [s1] at this
            exact this
          by_cases hdc : d ∈ cs
          · exact hms d hdc n1 n2 y
          · have hdc' : d = c := by
              rcases List.mem_cons.1 hd' with h1 | h1
              · exact h1
              · exact absurd h1 hdc
            subst hdc'
            have hsame : see t' (D ++ d :: y) = see t1 (D ++ d :: y) := by
              rcases j1 (D ++ d :: y) with e' | ⟨d', hd'', y', hy, _⟩
              · exact e'
              · have := List.append_cancel_left hy
                simp only [List.cons.injEq] at this
                rw [this.1] at hdc
                exact absurd hd'' hdc
            have := hm1 y
            unfold Match at this ⊢
            rw [hsame]
            exact this
      cases hg : get t (S ++ [c]) with
      | none => exact absurd (see_none.1 hg) hcn
      | some n =>
        have hfd : fileIsDirectory h t (text S ++ '/' :: c) = n.isDir := by
          rw [← text_snoc]
          unfold fileIsDirectory stat
          rw [stripOne_text hpc.1 hpc.2, hloc]
          simp [hg, text_ne]
        have e1 : copyEach h always rec (text S) (text D) t (c :: cs) = if n.isDir then match rec t (text (S ++ [c])) (text (D ++ [c])) with
              | some (true, t') => copyEach h always rec (text S) (text D) t' cs
              | o => o
            else
              if (copyAFile h always t (text (S ++ [c])) (text D)).1 then copyEach h always rec (text S) (text D) (copyAFile h always t (text (S ++ [c])) (text D)).2 cs
              else some (copyAFile h always t (text (S ++ [c])) (text D)) := by
          rw [copyEach, if_neg (by simp only [not_or]; exact hdot), hfd, text_snoc, text_snoc]
        rw [e1]
        cases n with
        | link s => exact absurd (see_link.1 hg) (b3 s)
        | file b m =>
          simp only [Node.isDir, Bool.false_eq_true, if_false]
          have hsee : see t (S ++ [c]) = some (.file b m) := see_get.2 hg
          obtain ⟨o1, o2, o3⟩ := copy_one hr always hd hsee
          have hstep : ∀ x, see (copyAFile h always t (text (S ++ [c])) (text D)).2 x = see t x ∨ ∃ y, x = D ++ c :: y ∧ see t (S ++ c :: y) ≠ none := by
            intro x
            by_cases hx : x = D ++ [c]
            · exact .inr ⟨[], hx, hcn⟩
            · exact .inl (o1 x hx)
          by_cases hok : (copyAFile h always t (text (S ++ [c])) (text D)).1 = true
          · simp only [hok, if_true]
            refine rest _ hstep (fun y => ?_)
            cases y with
            | nil =>
              constructor
              · intro b' m' hx
                rw [hsee] at hx; cases hx
                exact o2 hok
              · intro m' hx
                rw [hsee] at hx; cases hx
            | cons d y =>
              have hn : see t (S ++ c :: d :: y) = none := by
                unfold see
                rw [show S ++ c :: d :: y = S ++ [c] ++ d :: y by simp, get_append, hg, get_leaf rfl]; rfl
              constructor
              · intro b' m' hx; rw [hn] at hx; cases hx
              · intro m' hx; rw [hn] at hx; cases hx
          · simp only [hok]
            refine ⟨fun b' t' hx => ?_, fun hm _ => absurd (o3 hm) hok⟩
            simp only [Bool.false_eq_true, if_false, Option.some.injEq] at hx
            rw [hx] at hok hstep
            refine ⟨fun x => (hstep x).imp_right fun ⟨y, r⟩ => ⟨c, by simp, y, r⟩, fun hb => absurd hb hok⟩
        | dir m es =>
          simp only [Node.isDir, if_true]
          have hsee : see t (S ++ [c]) = some (.dir m) := see_dir.1 ⟨es, hg⟩
          obtain ⟨he1, hrc⟩ := child_ready hr hd hsee
          obtain ⟨p1, p2⟩ := hrec t (S ++ [c]) (D ++ [c]) (e - 1) hrc
          have ea : ∀ (P y : Path), P ++ [c] ++ y = P ++ (c :: y) := fun P y => by simp
          obtain ⟨md, hmd⟩ := hd
          obtain ⟨esd, hgd⟩ := see_dir.2 hmd
          have hstep : ∀ t', Eff h (S ++ [c]) (D ++ [c]) t t' → ∀ x, see t' x = see t x ∨ ∃ y, x = D ++ c :: y ∧ see t (S ++ c :: y) ≠ none := by
            intro t' heff x
            rcases heff x with e' | ⟨y, _, rfl, hy⟩ | ⟨hpre, hn, _⟩
            · exact .inl e'
            · exact .inr ⟨y, ea _ _, by rw [← ea]; exact hy⟩
            · rcases List.prefix_concat_iff.1 hpre with e' | hpre
              · exact .inr ⟨[], e', hcn⟩
              · exfalso
                by_cases hxe : x = D
                · rw [hxe, hmd] at hn; cases hn
                · obtain ⟨m2, es2, h2⟩ := prefix_dir hgd hpre hxe
                  rw [← see_none, h2] at hn
                  cases hn
          have hmatch : ∀ t', (∀ y, Match always (S ++ [c]) (D ++ [c]) t t' y) → ∀ y, Match always S D t t' (c :: y) := by
            intro t' hm y
            have := hm y
            unfold Match at this ⊢
            rw [ea, ea] at this
            exact this
          cases hres : rec t (text (S ++ [c])) (text (D ++ [c])) with
          | none =>
            refine ⟨fun b' t' hx => (by cases hx), fun hm hk => ?_⟩
            obtain ⟨t', ht'⟩ := p2 hm (by omega)
            rw [hres] at ht'; cases ht'
          | some y =>
            obtain ⟨bb, t1⟩ := y
            obtain ⟨q1, q2⟩ := p1 bb t1 hres
            cases bb with
            | true => exact rest t1 (hstep t1 q1) (hmatch t1 (q2 rfl))
            | false =>
              refine ⟨fun b' t' hx => ?_, fun hm hk => ?_⟩
              · cases hx
                exact ⟨fun x => (hstep t1 q1 x).imp_right fun ⟨y, r⟩ => ⟨c, by simp, y, r⟩, fun hb => (by cases hb)⟩
              · obtain ⟨t', ht'⟩ := p2 hm (by omega)
                rw [hres] at ht'; cases ht'

theorem copy_spec (always : Bool) : ∀ k, Spec h always k (copyADirectory h always k) := by
  intro k
  induction k with
  | zero =>
    intro t S D e _
    exact ⟨fun b t' hx => (by cases hx), fun _ hk => absurd hk (by omega)⟩
  | succ k ih =>
    intro t S D e hr
    have hs := hr.steps
    have hnlD := free_noLinks hr.free
    have hgr := makeDirectory_grows (h := h) t D hr.neD hr.plainD hnlD (by omega)
    obtain ⟨m1, m2, m3⟩ := C185_make_partial (h := h) t D hr.neD hr.plainD hnlD (by omega)
    have hdir := m1 (fun b m hx => by
      rcases hr.free D (List.prefix_refl _) with e' | ⟨_, _, e'⟩ <;> (rw [hx] at e'; cases e'))
    obtain ⟨mS, esS, hgS⟩ := hr.getS
    have hsS : see t S = some (.dir mS) := see_dir.1 ⟨esS, hgS⟩
    have hlocS := hr.locS (y := []) (by rw [List.append_nil, hsS]; simp)
    rw [List.append_nil] at hlocS
    have hrdS : ∀ t', h.may .read t' S = true := by simpa using hr.readS [] mS (by rw [List.append_nil, hsS])
    have hnames : readdir h t (text S) = c!"." :: c!".." :: esS.map Prod.fst := by
      unfold readdir
      rw [hlocS]
      simp only [hgS, hrdS, if_true]
    have hsrc : ∀ y, see (makeDirectory h t (text D)).2 (S ++ y) = see t (S ++ y) := by
      intro y
      by_cases hn : see t (S ++ y) = none
      · rcases (hgr (S ++ y)).2 hn with e' | ⟨hpre, _⟩
        · rw [e', hn]
        · exact absurd ((List.prefix_append S y).trans hpre) hr.apart.1
      · exact (hgr _).1 hn
    have heff0 : Eff h S D t (makeDirectory h t (text D)).2 := by
      intro x
      by_cases hn : see t x = none
      · rcases (hgr x).2 hn with e' | ⟨hpre, e'⟩
        · exact .inl (by rw [e', hn])
        · exact .inr (.inr ⟨hpre, hn, e'⟩)
      · exact .inl ((hgr x).1 hn)
    have e1 : copyADirectory h always (k + 1) t (text S) (text D) = if (makeDirectory h t (text D)).1 then
        copyEach h always (copyADirectory h always k) (text S) (text D) (makeDirectory h t (text D)).2 (readdir h t (text S)) else some (makeDirectory h t (text D)) := rfl
    rw [e1, hnames]
    by_cases hok : (makeDirectory h t (text D)).1 = true
    · rw [if_pos hok]
      obtain ⟨mD, esD, hgD⟩ := hdir hok
      have hr1 : CanCopy h (makeDirectory h t (text D)).2 S D e := by
        refine ⟨hr.neS, hr.neD, hr.plainS, hr.plainD, hr.colon, hr.apart, ⟨mS, by have := hsrc []; simp only [List.append_nil] at this; rw [this, hsS]⟩, ?_, ?_,
          free_grows hgr hr.free, ?_, hr.steps⟩
        · intro y hy
          rw [hsrc] at hy ⊢
          exact hr.belowS y hy
        · intro y m hy
          rw [hsrc] at hy
          exact hr.readS y m hy
        · intro y
          rw [hsrc]
          by_cases hn : see t (D ++ y) = none
          · rcases (hgr (D ++ y)).2 hn with e' | ⟨hpre, e'⟩
            · rw [e']
              exact ⟨fun _ _ _ o ho => (by cases ho), fun _ _ o ho => (by cases ho)⟩
            · have hy : y = [] := by
                have := hpre.length_le
                rw [List.length_append] at this
                exact List.eq_nil_of_length_eq_zero (by omega)
              subst hy
              rw [e']
              refine ⟨fun b m hx => ?_, fun _ _ o ho => ?_⟩
              · rw [List.append_nil, hsS] at hx; cases hx
              · cases ho; exact ⟨_, rfl⟩
          · rw [(hgr _).1 hn]
            exact hr.compat y
      have hdD : ∃ m, see (makeDirectory h t (text D)).2 D = some (.dir m) := ⟨mD, see_dir.1 ⟨esD, hgD⟩⟩
      have hmem : ∀ c, c ∈ esS.map Prod.fst ↔ see t (S ++ [c]) ≠ none := by
        intro c
        rw [mem_find]
        have : get t (S ++ [c]) = find esS c := by rw [get_append, hgS, get_dir, get_nil]
        rw [← this, ne_eq, see_none]
      obtain ⟨i1, i2⟩ := each_copy ih (c!"." :: c!".." :: esS.map Prod.fst) _ hr1 hdD (by
        intro c hc n1 n2
        rw [hsrc]
        simp only [List.mem_cons] at hc
        rcases hc with hc | hc | hc
        · exact absurd hc n1
        · exact absurd hc n2
        · exact (hmem c).1 hc)
      refine ⟨fun b t' hx => ?_, fun hm hk => i2 hm (by omega)⟩
      obtain ⟨j1, j2⟩ := i1 b t' hx
      refine ⟨fun x => ?_, fun hb y => ?_⟩
      · rcases j1 x with e' | ⟨c, _, y, hy, hz⟩
        · rcases heff0 x with e'' | e'' | ⟨a, b, c⟩
          · exact .inl (e'.trans e'')
          · exact .inr (.inl e'')
          · exact .inr (.inr ⟨a, b, e'.trans c⟩)
        · rw [hsrc] at hz
          exact .inr (.inl ⟨c :: y, by simp, hy, hz⟩)
      · cases y with
        | nil =>
          constructor
          · intro b' m' hx; rw [List.append_nil, hsS] at hx; cases hx
          · intro _ _
            refine ⟨mD, ?_⟩
            rw [List.append_nil]
            rcases j1 D with e' | ⟨c, _, y, hy, _⟩
            · rw [e']; exact see_dir.1 ⟨esD, hgD⟩
            · exfalso
              have := congrArg List.length hy
              simp at this
        | cons c y =>
          by_cases hn : see t (S ++ c :: y) = none
          · constructor
            · intro b' m' hx; rw [hn] at hx; cases hx
            · intro m' hx; rw [hn] at hx; cases hx
          · obtain ⟨b1, b2, b3⟩ := hr.belowS _ hn
            have hnm := (b1 c (by simp)).1
            have hc : see t (S ++ [c]) ≠ none := by
              intro e'
              exact hn (see_below_none (see_none.2 e') ⟨y, by simp⟩)
            have := j2 hb c (by simp only [List.mem_cons]; exact .inr (.inr ((hmem c).2 hc))) hnm.2.1 hnm.2.2.1 y
            unfold Match at this ⊢
            rw [hsrc] at this
            exact this
    · rw [if_neg hok]
      refine ⟨fun b t' hx => ?_, fun hm _ => absurd (m3 hr.root hr.free (hm _)) hok⟩
      have hx' := Option.some.inj hx
      rw [hx'] at heff0 hok
      exact ⟨heff0, fun e' => absurd e' hok⟩

/-- C189 (partial). CopyADirectory: whatever happens, the source is not changed, nothing in the destination changes that has no counterpart in the source, and nothing else changes
but for new directories on the way; if true is returned every file of the source is in the destination with the same bytes (and permissions, if copied always), and every
directory is there; true is returned if all calls are permitted. -/
theorem C189_tree_partial (always : Bool) (k : Nat) (t : Tree) (S D : Path) (e : Nat) (hr : CanCopy h t S D e) :
    (∀ b t', copyADirectory h always k t (text S) (text D) = some (b, t') →
      (∀ y, see t' (S ++ y) = see t (S ++ y)) ∧
      (∀ y, see t (S ++ y) = none → see t' (D ++ y) = see t (D ++ y)) ∧
      (∀ x, ¬ D <+: x → see t' x = see t x ∨ (x <+: D ∧ see t x = none ∧ see t' x = some (.dir h.dirMode))) ∧
      (b = true → ∀ y,
        (∀ bytes m, see t (S ++ y) = some (.file bytes m) → ∃ m', see t' (D ++ y) = some (.file bytes m') ∧ (always = true → m' = m)) ∧
        (∀ m, see t (S ++ y) = some (.dir m) → ∃ m', see t' (D ++ y) = some (.dir m')))) ∧
    ((∀ c t q, h.may c t q = true) → e < k → ∃ t', copyADirectory h always k t (text S) (text D) = some (true, t')) := by
  obtain ⟨s1, s2⟩ := copy_spec always k t S D e hr
  refine ⟨fun b t' hx => ?_, s2⟩
  obtain ⟨e1, e2⟩ := s1 b t' hx
  refine ⟨eff_source hr.apart e1, fun y hy => ?_, fun x hx => ?_, e2⟩
  · rcases e1 (D ++ y) with e' | ⟨z, _, hz, hn⟩ | ⟨hpre, hn, _⟩
    · exact e'
    · rw [List.append_cancel_left hz] at hy; exact absurd hy hn
    · have hy' : y = [] := by
        have := hpre.length_le
        rw [List.length_append] at this
        exact List.eq_nil_of_length_eq_zero (by omega)
      subst hy'
      obtain ⟨m, hm⟩ := hr.dirS
      rw [List.append_nil, hm] at hy
      cases hy
  · rcases e1 x with e' | ⟨z, _, rfl, _⟩ | e'
    · exact .inl e'
    · exact absurd (List.prefix_append D z) hx
    · exact .inr e'

/-! ### Cases -/

/-- /s/a, /s/u/b, /d/a (other), /d/z -/
def two : Tree := some (.dir 0o755 [(c!"s", .dir 0o755 [(c!"a", .file [1] 0o600), (c!"u", .dir 0o700 [(c!"b", .file [2, 3] 0o644)])]),
  (c!"d", .dir 0o755 [(c!"a", .file [9] 0o444), (c!"z", .file [8] 0o644)])])

example : (copyADirectory {} true 3 two (c!"/s") (c!"/d")).map (fun r => (r.1, see r.2 [c!"d", c!"a"], see r.2 [c!"d", c!"u", c!"b"], see r.2 [c!"d", c!"z"])) =
    some (true, some (.file [1] 0o600), some (.file [2, 3] 0o644), some (.file [8] 0o644)) := by decide +kernel

theorem two_source (y : Path) (hy : see two ([c!"s"] ++ y) ≠ none) : y ∈ [[], [c!"a"], [c!"u"], [c!"u", c!"b"]] := by
  have e0 : get two ([c!"s"] ++ y) = get (some (.dir 0o755 [(c!"a", .file [1] 0o600), (c!"u", .dir 0o700 [(c!"b", .file [2, 3] 0o644)])])) y := by
    rw [get_append]; rfl
  rw [ne_eq, ← see_none, e0] at hy
  cases y with
  | nil => simp
  | cons c y =>
    rw [get_dir, find_cons, find_cons, find_nil] at hy
    split at hy
    · rename_i hc
      cases y with
      | nil => simp only at hc; simp [← hc]
      | cons d y => exact absurd (get_leaf rfl d y) hy
    · split at hy
      · rename_i hc
        simp only at hc
        cases y with
        | nil => simp [← hc]
        | cons d y =>
          rw [get_dir, find_cons, find_nil] at hy
          split at hy
          · rename_i hd
            simp only at hd
            cases y with
            | nil => simp [← hc, ← hd]
            | cons x y => exact absurd (get_leaf rfl x y) hy
          · exact absurd (get_none y) hy
      · exact absurd (get_none y) hy

/-- The conditions of C189 can be met, with files in the destination that are replaced and others that are kept. -/
example : CanCopy {} two [c!"s"] [c!"d"] 2 := by
  refine ⟨by simp, by simp, by unfold Plain Name; decide +kernel, by unfold Plain Name; decide +kernel, by decide +kernel, by decide +kernel, ⟨0o755, by decide +kernel⟩, ?_,
    fun _ _ _ _ => rfl, ?_, ?_, by decide⟩
  · intro y hy
    have := two_source y hy
    simp only [List.mem_cons, List.not_mem_nil, or_false] at this
    have aux : ∀ o : Option Obs, (match o with | some (.link _) => false | _ => true) = true → ∀ l, o ≠ some (.link l) := by
      intro o ho l e; subst e; cases ho
    rcases this with rfl | rfl | rfl | rfl <;> exact ⟨by unfold Plain Name; decide +kernel, by decide, aux _ (by decide +kernel)⟩
  · intro q hq
    have hm : q ∈ [[], [c!"d"]] := by
      have := List.mem_inits _ _ |>.2 hq
      simpa using this
    simp only [List.mem_cons, List.not_mem_nil, or_false] at hm
    rcases hm with rfl | rfl
    · exact .inr ⟨_, _, rfl⟩
    · exact .inr ⟨_, _, rfl⟩
  · intro y
    by_cases hy : see two ([c!"s"] ++ y) = none
    · rw [hy]; exact ⟨fun _ _ e => (by cases e), fun _ e => (by cases e)⟩
    · have := two_source y hy
      simp only [List.mem_cons, List.not_mem_nil, or_false] at this
      rcases this with rfl | rfl | rfl | rfl
      · exact ⟨fun _ _ e => (by cases e), fun _ _ o ho => (by cases ho; exact ⟨_, rfl⟩)⟩
      · exact ⟨fun _ _ _ o ho => (by cases ho; exact ⟨_, _, rfl⟩), fun _ e => (by cases e)⟩
      · exact ⟨fun _ _ e => (by cases e), fun _ _ o ho => (by cases ho)⟩
      · exact ⟨fun _ _ _ o ho => (by cases ho), fun _ e => (by cases e)⟩

/-- C189, the full statement "if true is returned every file of the source is in the destination", is false: a source directory that can not be read, or is not there at all,
counts as empty. -/
theorem C189_refuted :
    ((copyADirectory { may := fun c _ p => match c with | .read => decide (p ≠ [c!"s", c!"u"]) | _ => true } true 3 two (c!"/s") (c!"/n")).map
      (fun r => (r.1, see r.2 [c!"n", c!"a"], see r.2 [c!"n", c!"u"], see r.2 [c!"n", c!"u", c!"b"])) = some (true, some (.file [1] 0o600), some (.dir 0o755), none)) ∧
    (copyADirectory {} true 3 two (c!"/nothing") (c!"/n")).map (fun r => (r.1, see r.2 [c!"n"])) = some (true, some (.dir 0o755)) := by
  constructor <;> decide +kernel

end Vital.Files
