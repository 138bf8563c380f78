import Verif.Files.Remove
import Verif.Sys.PathsProps
/-
  CopyFileAlways and CopyFileIfDifferent of vital/kwiversys/SystemTools.cxx on the file system of `Tree.lean`.
-/
namespace Vital.Files
open Vital

variable (h : Host)

-- models: vital/kwiversys/SystemTools.cxx:1139-1198 (SameFile); without hard links a file is its path
def sameFile (t : Tree) (a b : Str) : Bool := match locate h t a, locate h t b with
  | .ok p, .ok q => decide (p = q)
  | _, _ => false

-- models: vital/kwiversys/SystemTools.cxx:2437-2484 (RemoveFile, the output stream and the copy loop); the input is the file that was at `sp` when it was opened, with bytes `b`:
-- if that very file is the one opened for writing, nothing is left to be read
def pour (t : Tree) (sp : Path) (b : List Nat) (real : Str) : Bool × Tree :=
  let t2 := (removeFile h t real).2
  match openWrite h t2 40 real with
  | none => (false, t2)
  | some (q, t3) =>
    let b' := if q = sp ∧ (get t2 sp).isSome then [] else b
    if h.may .write t3 q then (true, alter (setBytes b') t3 q) else (false, alter (setBytes (b'.take (h.short t3 q))) t3 q)

-- models: vital/kwiversys/SystemTools.cxx:2486-2493 (the permissions, at the end of CopyFileAlways)
def finish (perm : Option Nat) (r : Bool × Tree) (real : Str) : Bool × Tree :=
  if r.1 then match perm with
    | some m => setPermissions h r.2 real m
    | none => (true, r.2)
  else r

-- models: vital/kwiversys/SystemTools.cxx:2381-2495 (CopyFileAlways)
def copyFileAlways (t : Tree) (src dst : Str) : Bool × Tree :=
  if sameFile h t src dst then (true, t)
  else
    let perm := getPermissions h t src
    if fileIsDirectory h t src then finish h perm (true, (makeDirectory h t dst).2) dst
    else
      let inDir := fileExists h t dst && fileIsDirectory h t dst
      let real := if inDir then Sys.convertToUnixSlashes h.world dst ++ '/' :: Sys.getFilenameName src else dst
      let t1 := (makeDirectory h t (if inDir then dst else Sys.getFilenamePath h.world dst)).2
      match openRead h t1 src with
      | none => (false, t1)
      | some (sp, b) => finish h perm (pour h t1 sp b real) real

-- models: vital/kwiversys/SystemTools.cxx:2230-2261 (CopyFileIfDifferent)
def copyFileIfDifferent (t : Tree) (src dst : Str) : Bool × Tree :=
  let cmp := if fileIsDirectory h t dst then Sys.convertToUnixSlashes h.world dst ++ '/' :: Sys.getFilenameName src else dst
  if filesDiffer h t src cmp then copyFileAlways h t src dst else (true, t)

/-! ### Look-ups in a tree that grew -/

variable {h}

theorem get_grows {S : Path → Prop} {t t' : Tree} (hg : Grows h S t t') {q : Path} {n : Node} (hq : get t q = some n) : ∃ n', get t' q = some n' ∧ n'.obs = n.obs := by
  have hs : see t q = some n.obs := by unfold see; rw [hq]; rfl
  have := (hg q).1 (by rw [hs]; simp)
  rw [hs] at this
  unfold see at this
  cases hx : get t' q with
  | none => rw [hx] at this; cases this
  | some n' => rw [hx] at this; exact ⟨n', rfl, by simpa using this⟩

theorem file_grows {S : Path → Prop} {t t' : Tree} (hg : Grows h S t t') {q : Path} {b : List Nat} {m : Nat} (hq : get t q = some (.file b m)) : get t' q = some (.file b m) := by
  obtain ⟨n', h1, h2⟩ := get_grows hg hq
  cases n' <;> simp [Node.obs] at h2
  rw [h1, h2.1, h2.2]

theorem walk_grows {S : Path → Prop} {t t' : Tree} (hg : Grows h S t t') : ∀ (k : Nat) (cur : Path) (l : List Str) {r : Path}, walk t k cur l = .ok r → walk t' k cur l = .ok r := by
  intro k
  induction k with
  | zero => intro cur l r hw; cases hw
  | succ k ih =>
    intro cur l r hw
    cases l with
    | nil => exact hw
    | cons c l =>
      simp only [walk] at hw ⊢
      cases hc : get t cur with
      | none => rw [hc] at hw; cases hw
      | some n =>
        cases n with
        | file b m => rw [hc] at hw; cases hw
        | link s => rw [hc] at hw; cases hw
        | dir m es =>
          rw [hc] at hw
          obtain ⟨m', es', hc'⟩ := dir_grows hg ⟨m, es, hc⟩
          rw [hc']
          simp only at hw ⊢
          by_cases h1 : c = [] ∨ c = c!"."
          · rw [if_pos h1] at hw ⊢; exact ih _ _ hw
          · rw [if_neg h1] at hw ⊢
            by_cases h2 : c = c!".."
            · rw [if_pos h2] at hw ⊢; exact ih _ _ hw
            · rw [if_neg h2] at hw ⊢
              cases hx : get t (cur ++ [c]) with
              | none => rw [hx] at hw; cases hw
              | some n =>
                obtain ⟨n', g1, g2⟩ := get_grows hg hx
                rw [hx] at hw
                rw [g1]
                cases n with
                | file b m =>
                  cases n' <;> simp [Node.obs] at g2
                  exact ih _ _ hw
                | link s =>
                  cases n' <;> simp [Node.obs] at g2
                  subst g2
                  exact ih _ _ hw
                | dir m es =>
                  cases n' <;> simp [Node.obs] at g2
                  exact ih _ _ hw

theorem locate_grows {S : Path → Prop} {t t' : Tree} (hg : Grows h S t t') {s : Str} {r : Path} (hw : locate h t s = .ok r) : locate h t' s = .ok r := by
  unfold locate at hw ⊢
  split at hw
  · cases hw
  · rename_i hs
    rw [if_neg hs]
    exact walk_grows hg _ _ _ hw

/-! ### Writing the destination -/

/-- Only `D` may differ. -/
def Only (D : Path) (t t' : Tree) : Prop := ∀ x, x ≠ D → see t' x = see t x

theorem only_refl (D : Path) (t : Tree) : Only D t t := fun _ _ => rfl

theorem only_trans {D : Path} {t1 t2 t3 : Tree} (a : Only D t1 t2) (b : Only D t2 t3) : Only D t1 t3 := fun x hx => (b x hx).trans (a x hx)

/-- Replacing what is not a directory by what is not a directory. -/
theorem alter_only {t : Tree} {D : Path} (f : Option Node → Option Node) (hh : HasDir t D) (h1 : ∀ n, get t D = some n → n.isDir = false)
    (h2 : ∀ n, f (get t D) = some n → n.isDir = false) : Only D t (alter f t D) := by
  intro x hx
  by_cases hq : D <+: x
  · obtain ⟨r, rfl⟩ := hq
    cases r with
    | nil => simp at hx
    | cons c r =>
      unfold see
      rw [alter_below _ _ _ _ hh, get_append]
      have e1 : get (f (get t D)) (c :: r) = none := by
        cases hn : f (get t D) with
        | none => rw [get_none]
        | some n => exact get_leaf (h2 n hn) c r
      have e2 : get (get t D) (c :: r) = none := by
        cases hn : get t D with
        | none => rw [get_none]
        | some n => exact get_leaf (h1 n hn) c r
      rw [e1, e2]
  · exact alter_see f t D x hq

theorem text_notSlash {D : Path} {c : Str} (hc : Name c) : (text (D ++ [c])).getLast? ≠ some '/' := by
  obtain ⟨a, ha, hl⟩ := text_last (p := D) hc
  rw [hl]
  intro e
  cases e
  exact hc.2.2.2 ha

/-- RemoveFile at `D = q ++ [c]`. -/
theorem remove_only {t : Tree} {q : Path} {c : Str} (hn : ∀ d ∈ q, Name d) (hc : Name c) (hl : NoLinks t q) :
    Only (q ++ [c]) t (removeFile h t (text (q ++ [c]))).2 ∧
    ((removeFile h t (text (q ++ [c]))).2 = t ∨ (get (removeFile h t (text (q ++ [c]))).2 (q ++ [c]) = none)) ∧
    ((∃ m es, get t q = some (.dir m es)) → q.length + 1 < h.steps → (∀ n, get t (q ++ [c]) = some n → n.isDir = false ∧ h.may .unlink t (q ++ [c]) = true) →
      get (removeFile h t (text (q ++ [c]))).2 (q ++ [c]) = none) := by
  cases hp : place h t (text (q ++ [c])) with
  | error e =>
    have e' : (removeFile h t (text (q ++ [c]))).2 = t := by unfold removeFile unlink; simp only [hp]; cases e <;> rfl
    rw [e']
    refine ⟨only_refl _ _, .inl rfl, fun ⟨m, es, hd⟩ hk _ => ?_⟩
    rw [place_there hn hc hl hd hk] at hp
    cases hp
  | ok r =>
    obtain ⟨rfl, m, es, hd⟩ := place_plain hn hc hl hp
    have hh := hasDir_snoc hd c
    cases hg : get t (q ++ [c]) with
    | none =>
      have e' : (removeFile h t (text (q ++ [c]))).2 = t := by unfold removeFile unlink; simp only [hp, hg]
      rw [e']
      exact ⟨only_refl _ _, .inl rfl, fun _ _ _ => hg⟩
    | some n =>
      by_cases hdir : n.isDir = true
      · have e' : (removeFile h t (text (q ++ [c]))).2 = t := by
          unfold removeFile unlink; cases n <;> simp [Node.isDir] at hdir
          simp only [hp, hg]
        rw [e']
        exact ⟨only_refl _ _, .inl rfl, fun _ _ hx => (by have := (hx n rfl).1; rw [hdir] at this; cases this)⟩
      · by_cases hm : h.may .unlink t (q ++ [c]) = true
        · have e' : (removeFile h t (text (q ++ [c]))).2 = alter (fun _ => none) t (q ++ [c]) := by
            unfold removeFile unlink; cases n <;> simp [Node.isDir] at hdir <;> simp only [hp, hg, hm, if_true]
          rw [e']
          have hz : get (alter (fun _ => none) t (q ++ [c])) (q ++ [c]) = none := by rw [alter_at _ _ _ hh]
          exact ⟨alter_only _ hh (fun n' hn' => by rw [hg] at hn'; cases hn'; simpa using hdir) (fun n' hn' => by cases hn'), .inr hz, fun _ _ _ => hz⟩
        · have e' : (removeFile h t (text (q ++ [c]))).2 = t := by
            unfold removeFile unlink; cases n <;> simp [Node.isDir] at hdir <;> simp [hp, hg, hm]
          rw [e']
          exact ⟨only_refl _ _, .inl rfl, fun _ _ hx => absurd (hx n rfl).2 hm⟩

theorem noLinks_only {t t' : Tree} {q : Path} {c : Str} (ho : Only (q ++ [c]) t t') (hl : NoLinks t q) : NoLinks t' q := by
  intro x hx s hs
  rw [see_link, ho x (by rintro rfl; have := hx.length_le; simp at this; omega), ← see_link] at hs
  exact hl x hx s hs

theorem dir_only {t t' : Tree} {q : Path} {c : Str} (ho : Only (q ++ [c]) t t') (hd : ∃ m es, get t q = some (.dir m es)) : ∃ m es, get t' q = some (.dir m es) := by
  obtain ⟨m, es, hd⟩ := hd
  have : see t' q = some (.dir m) := by rw [ho q (by simp), ← see_dir]; exact ⟨es, hd⟩
  obtain ⟨es', he⟩ := see_dir.2 this
  exact ⟨m, es', he⟩

theorem pour_spec {t : Tree} {q : Path} {c : Str} {sp : Path} {b : List Nat} (hn : ∀ d ∈ q, Name d) (hc : Name c) (hl : NoLinks t q) (hk : q.length + 1 < h.steps)
    (hU : (∃ s, get t (q ++ [c]) = some (.link s)) ∨ sp = q ++ [c] → h.may .unlink t (q ++ [c]) = true) :
    Only (q ++ [c]) t (pour h t sp b (text (q ++ [c]))).2 ∧
    ((pour h t sp b (text (q ++ [c]))).1 = true → ∃ m', get (pour h t sp b (text (q ++ [c]))).2 (q ++ [c]) = some (.file b m')) ∧
    ((∃ m es, get t q = some (.dir m es)) → (∀ m es, get t (q ++ [c]) ≠ some (.dir m es)) → (∀ c t q, h.may c t q = true) → (pour h t sp b (text (q ++ [c]))).1 = true) := by
  obtain ⟨o1, o2, o3⟩ := remove_only (h := h) hn hc hl
  have hl2 := noLinks_only o1 hl
  unfold pour
  simp only
  generalize ht2 : (removeFile h t (text (q ++ [c]))).2 = t2 at o1 o2 o3 hl2 ⊢
  have hopen : openWrite h t2 40 (text (q ++ [c])) = match place h t2 (text (q ++ [c])) with
      | .error _ => none
      | .ok p => match get t2 p with
        | none => if h.may .create t2 p then some (p, alter (fun _ => some (.file [] h.fileMode)) t2 p) else none
        | some (.file _ m) => if h.may .create t2 p then some (p, alter (fun _ => some (.file [] m)) t2 p) else none
        | some (.dir _ _) => none
        | some (.link tg) => openWrite h t2 39 (if tg.head? = some '/' then tg else (p.dropLast.map fun c => '/' :: c).flatten ++ '/' :: tg) := by
    rw [openWrite, if_neg (text_notSlash hc)]
    rfl
  rw [hopen]
  cases hp : place h t2 (text (q ++ [c])) with
  | error e =>
    refine ⟨o1, fun e => (by cases e), fun hd _ _ => ?_⟩
    obtain ⟨m, es, hd⟩ := dir_only o1 hd
    rw [place_there hn hc hl2 hd hk] at hp
    cases hp
  | ok r =>
    obtain ⟨rfl, m, es, hd⟩ := place_plain hn hc hl2 hp
    have hh := hasDir_snoc hd c
    simp only
    -- the file that is opened: `D`, a regular file in `t2` or new
    have main : ∀ m0 : Nat, (∀ n, get t2 (q ++ [c]) = some n → n.isDir = false) → ((get t2 (q ++ [c])).isSome → sp ≠ q ++ [c]) →
        Only (q ++ [c]) t (match (if h.may .create t2 (q ++ [c]) then some (q ++ [c], alter (fun _ => some (.file [] m0)) t2 (q ++ [c])) else none : Option (Path × Tree)) with
          | none => (false, t2)
          | some (q', t3) =>
            if h.may .write t3 q' then (true, alter (setBytes (if q' = sp ∧ (get t2 sp).isSome then [] else b)) t3 q')
            else (false, alter (setBytes ((if q' = sp ∧ (get t2 sp).isSome then [] else b).take (h.short t3 q'))) t3 q')).2 ∧
        ((match (if h.may .create t2 (q ++ [c]) then some (q ++ [c], alter (fun _ => some (.file [] m0)) t2 (q ++ [c])) else none : Option (Path × Tree)) with
          | none => (false, t2)
          | some (q', t3) =>
            if h.may .write t3 q' then (true, alter (setBytes (if q' = sp ∧ (get t2 sp).isSome then [] else b)) t3 q')
            else (false, alter (setBytes ((if q' = sp ∧ (get t2 sp).isSome then [] else b).take (h.short t3 q'))) t3 q')).1 = true →
          ∃ m', get (match (if h.may .create t2 (q ++ [c]) then some (q ++ [c], alter (fun _ => some (.file [] m0)) t2 (q ++ [c])) else none : Option (Path × Tree)) with
          | none => (false, t2)
          | some (q', t3) =>
            if h.may .write t3 q' then (true, alter (setBytes (if q' = sp ∧ (get t2 sp).isSome then [] else b)) t3 q')
            else (false, alter (setBytes ((if q' = sp ∧ (get t2 sp).isSome then [] else b).take (h.short t3 q'))) t3 q')).2 (q ++ [c]) = some (.file b m')) ∧
        ((∀ c t q, h.may c t q = true) → (match (if h.may .create t2 (q ++ [c]) then some (q ++ [c], alter (fun _ => some (.file [] m0)) t2 (q ++ [c])) else none : Option (Path × Tree)) with
          | none => (false, t2)
          | some (q', t3) =>
            if h.may .write t3 q' then (true, alter (setBytes (if q' = sp ∧ (get t2 sp).isSome then [] else b)) t3 q')
            else (false, alter (setBytes ((if q' = sp ∧ (get t2 sp).isSome then [] else b).take (h.short t3 q'))) t3 q')).1 = true) := by
      intro m0 hnd hsp
      by_cases hcr : h.may .create t2 (q ++ [c]) = true
      · simp only [hcr, if_true]
        have oa : Only (q ++ [c]) t2 (alter (fun _ => some (.file [] m0)) t2 (q ++ [c])) := alter_only _ hh hnd (fun n hn => by cases hn; rfl)
        have ga : get (alter (fun _ => some (.file [] m0)) t2 (q ++ [c])) (q ++ [c]) = some (.file [] m0) := by rw [alter_at _ _ _ hh]
        have hh' : HasDir (alter (fun _ => some (.file [] m0)) t2 (q ++ [c])) (q ++ [c]) := hasDir_of_get ga
        have hb' : (if q ++ [c] = sp ∧ (get t2 sp).isSome = true then [] else b) = b := by
          rw [if_neg]
          rintro ⟨e, hs⟩
          subst e
          exact hsp hs rfl
        rw [hb']
        have ob : ∀ b', Only (q ++ [c]) t (alter (setBytes b') (alter (fun _ => some (.file [] m0)) t2 (q ++ [c])) (q ++ [c])) := fun b' =>
          only_trans o1 (only_trans oa (alter_only _ hh' (fun n hn => by rw [ga] at hn; cases hn; rfl) (fun n hn => by rw [ga] at hn; simp only [setBytes] at hn; cases hn; rfl)))
        by_cases hw : h.may .write (alter (fun _ => some (.file [] m0)) t2 (q ++ [c])) (q ++ [c]) = true
        · simp only [hw, if_true]
          exact ⟨ob b, fun _ => ⟨m0, by rw [alter_at _ _ _ hh', ga]; rfl⟩, fun _ => trivial⟩
        · simp only [hw]
          exact ⟨ob _, fun e => (by cases e), fun hm => absurd (hm _ _ _) hw⟩
      · simp only [hcr]
        exact ⟨o1, fun e => (by cases e), fun hm => absurd (hm _ _ _) hcr⟩
    cases hg : get t2 (q ++ [c]) with
    | none =>
      obtain ⟨m1, m2, m3⟩ := main h.fileMode (fun n hn => by rw [hg] at hn; cases hn) (fun e => by rw [hg] at e; cases e)
      exact ⟨m1, m2, fun _ _ hm => m3 hm⟩
    | some n =>
      have e2 : t2 = t := by
        rcases o2 with e | e
        · exact e
        · rw [hg] at e; cases e
      cases n with
      | dir m es =>
        refine ⟨o1, fun e => (by cases e), fun _ hx _ => ?_⟩
        rw [e2] at hg
        exact absurd hg (hx m es)
      | link s =>
        exfalso
        have hx := hU (.inl ⟨s, by rw [← e2]; exact hg⟩)
        have hd' : ∃ m es, get t q = some (.dir m es) := ⟨m, es, by rw [← e2]; exact hd⟩
        have := o3 hd' hk (fun n hn => by rw [← e2, hg] at hn; cases hn; exact ⟨rfl, hx⟩)
        rw [hg] at this; cases this
      | file b0 m0 =>
        have hne : sp ≠ q ++ [c] := by
          intro e
          have hx := hU (.inr e)
          have hd' : ∃ m es, get t q = some (.dir m es) := ⟨m, es, by rw [← e2]; exact hd⟩
          have := o3 hd' hk (fun n hn => by rw [← e2, hg] at hn; cases hn; exact ⟨rfl, hx⟩)
          rw [hg] at this; cases this
        obtain ⟨m1, m2, m3⟩ := main m0 (fun n hn => by rw [hg] at hn; cases hn; rfl) (fun _ => hne)
        exact ⟨m1, m2, fun _ _ hm => m3 hm⟩

theorem finish_spec {t : Tree} {q : Path} {c : Str} {r : Bool × Tree} {b : List Nat} {m : Nat} (hn : ∀ d ∈ q, Name d) (hc : Name c) (hl : NoLinks t q)
    (hk : q.length + 2 < h.steps) (ho : Only (q ++ [c]) t r.2) (hb : r.1 = true → ∃ m', get r.2 (q ++ [c]) = some (.file b m')) :
    Only (q ++ [c]) t (finish h (some m) r (text (q ++ [c]))).2 ∧
    ((finish h (some m) r (text (q ++ [c]))).1 = true → get (finish h (some m) r (text (q ++ [c]))).2 (q ++ [c]) = some (.file b m)) ∧
    (r.1 = true → (∀ t q, h.may .chmod t q = true) → (finish h (some m) r (text (q ++ [c]))).1 = true) := by
  unfold finish
  by_cases h1 : r.1 = true
  · obtain ⟨m', hg⟩ := hb h1
    rw [if_pos h1]
    simp only
    have hnl : NoLinks r.2 (q ++ [c]) := by
      intro x hx s hs
      rcases List.prefix_concat_iff.1 hx with e | hx
      · rw [e, hg] at hs; cases hs
      · exact noLinks_only ho hl x hx s hs
    have hloc : locate h r.2 (text (q ++ [c])) = .ok (q ++ [c]) := by
      apply locate_there (by simp) ?_ hnl hg (by simp; omega)
      intro d hd
      rcases List.mem_append.1 hd with hd | hd
      · exact hn d hd
      · rw [List.mem_singleton] at hd; subst hd; exact hc
    have hh := hasDir_of_get hg
    unfold setPermissions stat chmod
    simp only [hloc, hg]
    rw [if_neg (by simp [text_ne])]
    by_cases hm : h.may .chmod r.2 (q ++ [c]) = true
    · simp only [hm, if_true]
      refine ⟨only_trans ho (alter_only _ hh (fun n hn => by rw [hg] at hn; cases hn; rfl) (fun n hn => by rw [hg] at hn; cases hn; rfl)), fun _ => ?_, fun _ _ => trivial⟩
      rw [alter_at _ _ _ hh, hg]; rfl
    · simp only [hm]
      exact ⟨ho, fun e => (by cases e), fun _ hx => absurd (hx _ _) hm⟩
  · rw [if_neg h1]
    exact ⟨ho, fun e => absurd e h1, fun e => absurd e h1⟩

/-! ### The directory of the destination -/

theorem makeDirectory_root (t : Tree) : (makeDirectory h t (c!"/")).2 = t := by
  unfold makeDirectory
  split
  · rfl
  · rw [if_neg (by decide)]
    have e1 : Sys.convertToUnixSlashes h.world (c!"/") = c!"/" := by rfl
    simp only [e1]
    have e2 : (cuts [] (c!"/")).foldl (tryMkdir h) t = t := by rfl
    rw [e2]
    have e3 : mkdir h t (c!"/") = .error .exist := by rfl
    rw [e3]

theorem makeDirectory_grows (t : Tree) (p : Path) (hne : p ≠ []) (hp : Plain p) (hl : NoLinks t p) (hk : p.length + 1 < h.steps) : Grows h (· <+: p) t (makeDirectory h t (text p)).2 :=
  fun q => ⟨(C185_only_adds h t (text p) q).1, (C185_make_partial t p hne hp hl hk).2.1 q⟩

theorem reverse_text (q : Path) (c : Str) : (text (q ++ [c])).reverse = c.reverse ++ '/' :: (text q).reverse := by rw [text_snoc]; simp

theorem takeWhile_name {c : Str} (hc : '/' ∉ c) (r : Str) : (c.reverse ++ '/' :: r).takeWhile (· != '/') = c.reverse ∧ (c.reverse ++ '/' :: r).dropWhile (· != '/') = '/' :: r := by
  have hx : ∀ a ∈ c.reverse, (a != '/') = true := by
    intro a ha
    rw [List.mem_reverse] at ha
    simp only [bne_iff_ne]
    rintro rfl
    exact hc ha
  rw [List.takeWhile_append_of_pos hx, List.dropWhile_append_of_pos hx]
  simp

theorem fileName_text (q : Path) {c : Str} (hc : '/' ∉ c) : Sys.getFilenameName (text (q ++ [c])) = c := by
  unfold Sys.getFilenameName Sys.afterLast
  rw [reverse_text, (takeWhile_name hc _).1, List.reverse_reverse]

theorem filePath_text {q : Path} {c : Str} (hp : Plain (q ++ [c])) (hq : q ≠ [c!":"]) : Sys.getFilenamePath h.world (text (q ++ [c])) = if q = [] then c!"/" else text q := by
  unfold Sys.getFilenamePath
  rw [convert_text (by simp) hp]
  have hc : '/' ∉ c := (hp c (by simp)).1.2.2.2
  have e : Sys.beforeLast '/' (text (q ++ [c])) = some (text q) := by
    unfold Sys.beforeLast
    rw [reverse_text, (takeWhile_name hc _).2]
    simp
  rw [e]
  simp only
  cases q with
  | nil => simp [text]
  | cons d q =>
    rw [if_neg, if_neg (text_ne (by simp)), if_neg (by simp)]
    rintro ⟨h1, h2⟩
    apply hq
    have hd : Name d := (hp d (by simp)).1
    rw [show text (d :: q) = '/' :: (d ++ text q) by simp [text]] at h1 h2
    cases d with
    | nil => exact absurd rfl hd.1
    | cons a d =>
      simp at h1 h2
      obtain ⟨rfl, h1⟩ := h1
      subst h2
      cases q with
      | nil => rfl
      | cons x q => simp [text] at h1

theorem pour_dir {t : Tree} {q : Path} {c : Str} {sp : Path} {b : List Nat} (hn : ∀ d ∈ q, Name d) (hc : Name c) (hl : NoLinks t q) {m : Nat} {es : List (Str × Node)}
    (hg : get t (q ++ [c]) = some (.dir m es)) : pour h t sp b (text (q ++ [c])) = (false, t) := by
  have e1 : (removeFile h t (text (q ++ [c]))).2 = t := by
    unfold removeFile unlink
    cases hp : place h t (text (q ++ [c])) with
    | error e => simp only; cases e <;> rfl
    | ok r =>
      obtain ⟨rfl, _⟩ := place_plain hn hc hl hp
      simp only [hg]
  have e2 : openWrite h t 40 (text (q ++ [c])) = none := by
    rw [openWrite, if_neg (text_notSlash hc)]
    cases hp : place h t (text (q ++ [c])) with
    | error e => rfl
    | ok r =>
      obtain ⟨rfl, _⟩ := place_plain hn hc hl hp
      simp only [hg]
  unfold pour
  simp only [e1, e2]

/-! ### CopyFileAlways -/

/-- The tree after a copy to `D`, whose directory is `q`: directories may have been added on the way. -/
def Copied (h : Host) (q D : Path) (t t' : Tree) : Prop := ∀ x, x ≠ D →
  (see t x ≠ none → see t' x = see t x) ∧ (see t x = none → see t' x = none ∨ (x <+: q ∧ see t' x = some (.dir h.dirMode)))

theorem copied_of {q D : Path} {t t1 t' : Tree} (hg : Grows h (· <+: q) t t1) (ho : Only D t1 t') : Copied h q D t t' := by
  intro x hx
  rw [ho x hx]
  exact hg x

theorem core {t t1 : Tree} {src : Str} {sp : Path} {b : List Nat} {m : Nat} {q : Path} {c : Str} (hsrc : locate h t src = .ok sp) (hfile : get t sp = some (.file b m))
    (hn : ∀ d ∈ q, Name d) (hc : Name c) (hl : NoLinks t q) (hk : q.length + 2 < h.steps) (hg : Grows h (· <+: q) t t1)
    (hU : (∃ s, get t (q ++ [c]) = some (.link s)) ∨ sp = q ++ [c] → ∀ t', h.may .unlink t' (q ++ [c]) = true)
    (r : Bool × Tree) (hr : r = match openRead h t1 src with
      | none => (false, t1)
      | some (sp, b) => finish h (some m) (pour h t1 sp b (text (q ++ [c]))) (text (q ++ [c]))) :
    Copied h q (q ++ [c]) t r.2 ∧ (r.1 = true → get r.2 (q ++ [c]) = some (.file b m)) ∧
    ((∃ m es, get t1 q = some (.dir m es)) → (∀ m es, get t (q ++ [c]) ≠ some (.dir m es)) → (∀ c t q, h.may c t q = true) → r.1 = true) := by
  have hs1 := locate_grows hg hsrc
  have hf1 := file_grows hg hfile
  have hl1 := noLinks_grows hg hl
  unfold openRead at hr
  simp only [hs1, hf1] at hr
  by_cases hrd : h.may .read t1 sp = true
  · simp only [hrd, if_true] at hr
    obtain ⟨p1, p2, p3⟩ := pour_spec (h := h) (sp := sp) (b := b) hn hc hl1 (by omega) (by
      rintro (⟨s, hs⟩ | e)
      · apply hU
        left
        refine ⟨s, ?_⟩
        rw [see_link] at hs ⊢
        by_cases hx : see t (q ++ [c]) = none
        · rcases (hg _).2 hx with e | ⟨_, e⟩ <;> (rw [e] at hs; cases hs)
        · rw [(hg _).1 hx] at hs; exact hs
      · exact hU (.inr e) t1)
    obtain ⟨f1, f2, f3⟩ := finish_spec (h := h) (m := m) hn hc hl1 hk p1 p2
    rw [hr]
    refine ⟨copied_of hg f1, f2, fun hd hx hm => f3 (p3 hd ?_ hm) (hm _)⟩
    intro m' es' hd'
    by_cases hx' : see t (q ++ [c]) = none
    · have : see t1 (q ++ [c]) = some (.dir m') := see_dir.1 ⟨es', hd'⟩
      rcases (hg _).2 hx' with e | ⟨hpre, e⟩
      · rw [e] at this; cases this
      · have := hpre.length_le; simp at this; omega
    · have : see t1 (q ++ [c]) = some (.dir m') := see_dir.1 ⟨es', hd'⟩
      rw [(hg _).1 hx', ← see_dir] at this
      obtain ⟨es, he⟩ := this
      exact hx _ _ he
  · simp only [hrd] at hr
    rw [hr]
    exact ⟨copied_of hg (only_refl _ _), fun e => (by cases e), fun _ _ hm => absurd (hm _ _ _) hrd⟩

theorem copy_full (t : Tree) (s : Path) (n : Str) (sp : Path) (b : List Nat) (m : Nat) (q : Path) (c : Str) (D : Path)
    (hn : Name n ∧ '\\' ∉ n) (hsrc : locate h t (text (s ++ [n])) = .ok sp) (hfile : get t sp = some (.file b m))
    (hp : Plain (q ++ [c])) (hq : q ≠ [c!":"]) (hl : NoLinks t q) (hk : q.length + 4 < h.steps)
    (hD : (D = q ++ [c] ∧ ∀ m es, stat h t (text (q ++ [c])) ≠ some (.dir m es)) ∨ (D = q ++ [c] ++ [n] ∧ ∃ m es, get t (q ++ [c]) = some (.dir m es)))
    (hU : (∃ s, get t D = some (.link s)) ∨ sp = D → ∀ t', h.may .unlink t' D = true) :
    let r := copyFileAlways h t (text (s ++ [n])) (text (q ++ [c]))
    (r.1 = true → (sameFile h t (text (s ++ [n])) (text (q ++ [c])) = true ∨ get r.2 D = some (.file b m)) ∧ stat h r.2 (text D) = some (.file b m)) ∧
    (∀ x, x ≠ D → (see t x ≠ none → see r.2 x = see t x) ∧ (see t x = none → see r.2 x = none ∨ (x <+: q ∧ see r.2 x = some (.dir h.dirMode)))) ∧
    ((∃ m es, get t [] = some (.dir m es)) → Free t q → (∀ m es, get t D ≠ some (.dir m es)) → (∀ c t q, h.may c t q = true) → r.1 = true) := by
  have hnq : ∀ d ∈ q, Name d := fun d hd => (hp d (by simp [hd])).1
  have hnc : Name c := (hp c (by simp)).1
  have hbc : '\\' ∉ c := (hp c (by simp)).2
  have hpq : Plain q := fun d hd => hp d (by simp [hd])
  have hsd : fileIsDirectory h t (text (s ++ [n])) = false := by
    unfold fileIsDirectory stat
    rw [stripOne_text hn.1 hn.2, hsrc]
    simp [hfile, Node.isDir]
  have hperm : getPermissions h t (text (s ++ [n])) = some m := by
    unfold getPermissions stat
    simp [hsrc, hfile, Node.mode]
  -- a destination found by its path
  have there : ∀ (q : Path) (c : Str) (t' : Tree), (∀ d ∈ q, Name d) → Name c → NoLinks t' q → q.length + 2 < h.steps → get t' (q ++ [c]) = some (.file b m) →
      stat h t' (text (q ++ [c])) = some (.file b m) := by
    intro q c t' hnq hnc hl hk hg
    have hnl : NoLinks t' (q ++ [c]) := by
      intro x hx s hs
      rcases List.prefix_concat_iff.1 hx with e | hx
      · rw [e, hg] at hs; cases hs
      · exact hl x hx s hs
    unfold stat
    rw [locate_there (by simp) ?_ hnl hg (by simp; omega)]
    · exact hg
    · intro d hd
      rcases List.mem_append.1 hd with hd | hd
      · exact hnq d hd
      · rw [List.mem_singleton] at hd; subst hd; exact hnc
  have copied_noLinks : ∀ (q : Path) (c : Str) (t' : Tree), NoLinks t q → Copied h q (q ++ [c]) t t' → NoLinks t' q := by
    intro q c t' hl hcp x hx s hs
    have hne : x ≠ q ++ [c] := by rintro rfl; have := hx.length_le; simp at this; omega
    rw [see_link] at hs
    by_cases hx' : see t x = none
    · rcases (hcp x hne).2 hx' with e | ⟨_, e⟩ <;> (rw [e] at hs; cases hs)
    · rw [(hcp x hne).1 hx', ← see_link] at hs
      exact hl x hx s hs
  intro r
  by_cases hsame : sameFile h t (text (s ++ [n])) (text (q ++ [c])) = true
  · have hr : r = (true, t) := by show copyFileAlways _ _ _ _ = _; unfold copyFileAlways; rw [if_pos hsame]
    rw [hr]
    refine ⟨fun _ => ⟨.inl hsame, ?_⟩, fun x _ => ⟨fun _ => rfl, fun e => .inl e⟩, fun _ _ _ _ => rfl⟩
    unfold sameFile at hsame
    rw [hsrc] at hsame
    cases hx : locate h t (text (q ++ [c])) with
    | error e => rw [hx] at hsame; cases hsame
    | ok y =>
      rw [hx] at hsame
      have : sp = y := by simpa using hsame
      subst this
      rcases hD with ⟨rfl, hD⟩ | ⟨rfl, m', es', hd⟩
      · show stat h t _ = _
        unfold stat
        rw [hx]
        exact hfile
      · have hnl : NoLinks t (q ++ [c]) := by
          intro x hx s hs
          rcases List.prefix_concat_iff.1 hx with e | hx
          · rw [e, hd] at hs; cases hs
          · exact hl x hx s hs
        have := locate_plain (h := h) (by simp) (fun d hd => (hp d hd).1) hnl hx
        rw [this, hd] at hfile
        cases hfile
  · have hr0 : r = (let inDir := fileExists h t (text (q ++ [c])) && fileIsDirectory h t (text (q ++ [c]))
        let real := if inDir then Sys.convertToUnixSlashes h.world (text (q ++ [c])) ++ '/' :: Sys.getFilenameName (text (s ++ [n])) else text (q ++ [c])
        let t1 := (makeDirectory h t (if inDir then text (q ++ [c]) else Sys.getFilenamePath h.world (text (q ++ [c])))).2
        match openRead h t1 (text (s ++ [n])) with
        | none => (false, t1)
        | some (sp, b) => finish h (some m) (pour h t1 sp b real) real) := by
      show copyFileAlways _ _ _ _ = _
      unfold copyFileAlways
      simp only [if_neg hsame, hsd, hperm]
      rfl
    -- the directory above the destination
    have hup : Grows h (· <+: q) t (makeDirectory h t (Sys.getFilenamePath h.world (text (q ++ [c])))).2 ∧
        ((∃ m es, get t [] = some (.dir m es)) → Free t q → (∀ c t q, h.may c t q = true) →
          ∃ m es, get (makeDirectory h t (Sys.getFilenamePath h.world (text (q ++ [c])))).2 q = some (.dir m es)) := by
      rw [filePath_text hp hq]
      by_cases hqe : q = []
      · subst hqe
        rw [if_pos rfl, makeDirectory_root]
        exact ⟨grows_refl h _ t, fun hd _ _ => hd⟩
      · rw [if_neg hqe]
        refine ⟨makeDirectory_grows t q hqe hpq hl (by omega), fun hd hf hm => ?_⟩
        obtain ⟨g1, g2, g3⟩ := C185_make_partial (h := h) t q hqe hpq hl (by omega)
        exact g1 (fun _ _ _ => hm _ _ _) (g3 hd hf (hm _))
    rcases hD with ⟨rfl, hD⟩ | ⟨rfl, m', es', hd⟩
    · have hnd : fileIsDirectory h t (text (q ++ [c])) = false := by
        unfold fileIsDirectory
        rw [stripOne_text hnc hbc]
        cases hx : stat h t (text (q ++ [c])) with
        | none => simp
        | some x =>
          cases x with
          | dir m es => exact absurd hx (hD m es)
          | file b m => simp [Node.isDir]
          | link s => simp [Node.isDir]
      simp only [hnd, Bool.and_false] at hr0
      obtain ⟨c1, c2, c3⟩ := core (h := h) hsrc hfile hnq hnc hl (by omega) hup.1 hU r hr0
      exact ⟨fun e => ⟨.inr (c2 e), there q c r.2 hnq hnc (copied_noLinks q c _ hl c1) (by omega) (c2 e)⟩, c1, fun hd hf hx hm => c3 (hup.2 hd hf hm) hx hm⟩
    · have hnl : NoLinks t (q ++ [c]) := by
        intro x hx s hs
        rcases List.prefix_concat_iff.1 hx with e | hx
        · rw [e, hd] at hs; cases hs
        · exact hl x hx s hs
      have hloc := locate_there (h := h) (by simp) (fun d hd => (hp d hd).1) hnl hd (by simp; omega)
      have hnd : fileIsDirectory h t (text (q ++ [c])) = true := by
        unfold fileIsDirectory stat
        rw [stripOne_text hnc hbc, hloc]
        simp [hd, Node.isDir, text_ne]
      have hex : fileExists h t (text (q ++ [c])) = h.may .read t (q ++ [c]) := by
        unfold fileExists access
        rw [hloc]
        simp [hd, text_ne]
      by_cases hrd : h.may .read t (q ++ [c]) = true
      · simp only [hnd, hex, hrd, Bool.and_true, if_true, convert_text (h := h) (show q ++ [c] ≠ [] by simp) hp, fileName_text s hn.1.2.2.2, ← text_snoc] at hr0
        have hmk : (makeDirectory h t (text (q ++ [c]))).2 = t := by unfold makeDirectory; rw [hex, if_pos hrd]
        rw [hmk] at hr0
        have hgr : Grows h (· <+: q ++ [c]) t t := grows_refl h _ t
        obtain ⟨c1, c2, c3⟩ := core (h := h) hsrc hfile (fun d hd => (hp d hd).1) hn.1 hnl (by simp; omega) hgr hU r hr0
        refine ⟨fun e => ⟨.inr (c2 e), there (q ++ [c]) n r.2 (fun d hd => (hp d hd).1) hn.1 (copied_noLinks (q ++ [c]) n _ hnl c1) (by simp; omega) (c2 e)⟩, ?_,
          fun _ _ hx hm => c3 ⟨m', es', hd⟩ hx hm⟩
        intro x hx
        refine ⟨(c1 x hx).1, fun e => ?_⟩
        rcases (c1 x hx).2 e with e' | ⟨hpre, e'⟩
        · exact .inl e'
        · exfalso
          by_cases hxe : x = q ++ [c]
          · subst hxe
            rw [← see_none, hd] at e
            cases e
          · obtain ⟨m2, es2, h2⟩ := prefix_dir hd hpre hxe
            rw [← see_none, h2] at e
            cases e
      · simp only [hnd, hex, hrd, Bool.false_and, Bool.and_true] at hr0
        obtain ⟨m2, es2, hd2⟩ := dir_grows hup.1 ⟨m', es', hd⟩
        have hl1 := noLinks_grows hup.1 hl
        have hr1 : r = (false, (makeDirectory h t (Sys.getFilenamePath h.world (text (q ++ [c])))).2) := by
          rw [hr0]
          cases hor : openRead h (makeDirectory h t (Sys.getFilenamePath h.world (text (q ++ [c])))).2 (text (s ++ [n])) with
          | none => simp [hor]
          | some y =>
            obtain ⟨sp', b'⟩ := y
            have hpd := pour_dir (h := h) (sp := sp') (b := b') hnq hnc hl1 hd2
            simp [hor, hpd, finish]
        rw [hr1]
        exact ⟨fun e => (by cases e), fun x _ => hup.1 x, fun _ _ _ hm => absurd (hm _ _ _) hrd⟩

/-- C187 (partial). CopyFileAlways from a regular file with bytes `b` and mode `m`, to a plain path `p = q ++ [c]` (no symbolic links on the way): the destination `D` is `p`, or
the source's name in `p` if `p` is a directory.  If it returns true the destination reads as `b` with mode `m`; in any case nothing but the destination changes, except for new
directories on the way to `p`; it returns true if all calls are permitted and nothing but directories stands on the way.
`hU`: a link at the destination, or a destination that is the source itself, can be unlinked. -/
theorem C187_copy_partial (t : Tree) (s : Path) (n : Str) (sp : Path) (b : List Nat) (m : Nat) (q : Path) (c : Str) (D : Path)
    (hn : Name n ∧ '\\' ∉ n) (hsrc : locate h t (text (s ++ [n])) = .ok sp) (hfile : get t sp = some (.file b m))
    (hp : Plain (q ++ [c])) (hq : q ≠ [c!":"]) (hl : NoLinks t q) (hk : q.length + 4 < h.steps)
    (hD : (D = q ++ [c] ∧ ∀ m es, stat h t (text (q ++ [c])) ≠ some (.dir m es)) ∨ (D = q ++ [c] ++ [n] ∧ ∃ m es, get t (q ++ [c]) = some (.dir m es)))
    (hU : (∃ s, get t D = some (.link s)) ∨ sp = D → ∀ t', h.may .unlink t' D = true) :
    let r := copyFileAlways h t (text (s ++ [n])) (text (q ++ [c]))
    (r.1 = true → stat h r.2 (text D) = some (.file b m)) ∧
    (∀ x, x ≠ D → (see t x ≠ none → see r.2 x = see t x) ∧ (see t x = none → see r.2 x = none ∨ (x <+: q ∧ see r.2 x = some (.dir h.dirMode)))) ∧
    ((∃ m es, get t [] = some (.dir m es)) → Free t q → (∀ m es, get t D ≠ some (.dir m es)) → (∀ c t q, h.may c t q = true) → r.1 = true) := by
  obtain ⟨a1, a2, a3⟩ := copy_full t s n sp b m q c D hn hsrc hfile hp hq hl hk hD hU
  exact ⟨fun e => (a1 e).2, a2, a3⟩

/-! ### CopyFileIfDifferent -/

theorem same_bytes {t : Tree} {src dst : Str} {sp : Path} {b : List Nat} {m : Nat} (hsrc : locate h t src = .ok sp) (hfile : get t sp = some (.file b m))
    (hf : ∀ n, stat h t dst = some n → ∃ b m, n = .file b m) (hd : filesDiffer h t src dst = false) : ∃ m', stat h t dst = some (.file b m') := by
  have hd0 := hd
  unfold filesDiffer at hd
  rw [hsrc] at hd
  unfold stat at hf ⊢
  cases hq : locate h t dst with
  | error e => rw [hq] at hd; cases hd
  | ok q =>
    rw [hq] at hf
    simp only [hq, hfile] at hd hf ⊢
    cases hg : get t q with
    | none => rw [hg] at hd; cases hd
    | some n =>
      obtain ⟨b', m', rfl⟩ := hf n hg
      by_cases h1 : b.length = b'.length
      · by_cases h2 : b.length = 0
        · have : b = [] := List.eq_nil_of_length_eq_zero h2
          have : b' = [] := List.eq_nil_of_length_eq_zero (by omega)
          exact ⟨m', by simp [*]⟩
        · by_cases r1 : h.may .read t sp = true
          · by_cases r2 : h.may .read t q = true
            · have := ((C184_differ h t src dst).1 sp q b b' m m' hsrc hq hfile hg r1 r2).1 hd0
              exact ⟨m', by rw [this]⟩
            · exfalso
              have h2' : b' ≠ [] := fun e => h2 (by rw [h1, e]; rfl)
              simp [hg, sizeOf, openRead, hsrc, hq, hfile, h1, r1, r2, h2'] at hd
          · exfalso
            have h2' : b' ≠ [] := fun e => h2 (by rw [h1, e]; rfl)
            simp [hg, sizeOf, openRead, hsrc, hq, hfile, h1, r1, h2'] at hd
      · exfalso
        simp [hg, sizeOf, h1] at hd

/-- C188 (partial). CopyFileIfDifferent, with the conditions of `C187_copy_partial`, and a destination that is a regular file if it is there: if it returns true the destination
holds the bytes of the source; if both are readable and hold the same bytes, nothing is changed at all; else only the destination changes, except for new directories on the way. -/
theorem C188_different_partial (t : Tree) (s : Path) (n : Str) (sp : Path) (b : List Nat) (m : Nat) (q : Path) (c : Str) (D : Path)
    (hn : Name n ∧ '\\' ∉ n) (hsrc : locate h t (text (s ++ [n])) = .ok sp) (hfile : get t sp = some (.file b m))
    (hp : Plain (q ++ [c])) (hq : q ≠ [c!":"]) (hl : NoLinks t q) (hk : q.length + 4 < h.steps)
    (hD : (D = q ++ [c] ∧ ∀ m es, stat h t (text (q ++ [c])) ≠ some (.dir m es)) ∨ (D = q ++ [c] ++ [n] ∧ ∃ m es, get t (q ++ [c]) = some (.dir m es)))
    (hU : (∃ s, get t D = some (.link s)) ∨ sp = D → ∀ t', h.may .unlink t' D = true)
    (hDf : ∀ x, stat h t (text D) = some x → ∃ b m, x = .file b m) :
    let r := copyFileIfDifferent h t (text (s ++ [n])) (text (q ++ [c]))
    (r.1 = true → ∃ m', stat h r.2 (text D) = some (.file b m')) ∧
    (∀ y m', h.may .read t sp = true → locate h t (text D) = .ok y → get t y = some (.file b m') → h.may .read t y = true → r = (true, t)) ∧
    (∀ x, x ≠ D → (see t x ≠ none → see r.2 x = see t x) ∧ (see t x = none → see r.2 x = none ∨ (x <+: q ∧ see r.2 x = some (.dir h.dirMode)))) ∧
    ((∃ m es, get t [] = some (.dir m es)) → Free t q → (∀ m es, get t D ≠ some (.dir m es)) → (∀ c t q, h.may c t q = true) → r.1 = true) := by
  obtain ⟨a1, a2, a3⟩ := C187_copy_partial t s n sp b m q c D hn hsrc hfile hp hq hl hk hD hU
  have hnc : Name c := (hp c (by simp)).1
  have hbc : '\\' ∉ c := (hp c (by simp)).2
  have hcmp : (if fileIsDirectory h t (text (q ++ [c])) then Sys.convertToUnixSlashes h.world (text (q ++ [c])) ++ '/' :: Sys.getFilenameName (text (s ++ [n]))
      else text (q ++ [c])) = text D := by
    rcases hD with ⟨rfl, hD⟩ | ⟨rfl, m', es', hd⟩
    · have hnd : fileIsDirectory h t (text (q ++ [c])) = false := by
        unfold fileIsDirectory
        rw [stripOne_text hnc hbc]
        cases hx : stat h t (text (q ++ [c])) with
        | none => simp
        | some x =>
          cases x with
          | dir m es => exact absurd hx (hD m es)
          | file b m => simp [Node.isDir]
          | link s => simp [Node.isDir]
      rw [hnd]; rfl
    · have hnl : NoLinks t (q ++ [c]) := by
        intro x hx s hs
        rcases List.prefix_concat_iff.1 hx with e | hx
        · rw [e, hd] at hs; cases hs
        · exact hl x hx s hs
      have hloc := locate_there (h := h) (by simp) (fun d hd => (hp d hd).1) hnl hd (by simp; omega)
      have hnd : fileIsDirectory h t (text (q ++ [c])) = true := by
        unfold fileIsDirectory stat
        rw [stripOne_text hnc hbc, hloc]
        simp [hd, Node.isDir, text_ne]
      rw [if_pos hnd, convert_text (h := h) (show q ++ [c] ≠ [] by simp) hp, fileName_text s hn.1.2.2.2, ← text_snoc]
  intro r
  have hr : r = if filesDiffer h t (text (s ++ [n])) (text D) then copyFileAlways h t (text (s ++ [n])) (text (q ++ [c])) else (true, t) := by
    show copyFileIfDifferent _ _ _ _ = _
    unfold copyFileIfDifferent
    rw [hcmp]
  by_cases hdf : filesDiffer h t (text (s ++ [n])) (text D) = true
  · rw [if_pos hdf] at hr
    rw [hr]
    refine ⟨fun e => ⟨m, a1 e⟩, fun y m' r1 hy hg r2 => ?_, a2, a3⟩
    have := ((C184_differ h t (text (s ++ [n])) (text D)).1 sp y b b m m' hsrc hy hfile hg r1 r2).2 rfl
    rw [this] at hdf
    cases hdf
  · rw [if_neg hdf] at hr
    rw [hr]
    exact ⟨fun _ => same_bytes hsrc hfile hDf (by simpa using hdf), fun _ _ _ _ _ _ => rfl, fun x _ => ⟨fun _ => rfl, fun e => .inl e⟩, fun _ _ _ _ => rfl⟩

/-! ### Cases -/

/-- /d/f, /d/e (a directory), /g, /l -> d/f -/
def shelf : Tree := some (.dir 0o755 [(c!"d", .dir 0o755 [(c!"f", .file [1, 2] 0o640), (c!"e", .dir 0o755 [])]), (c!"g", .file [3] 0o600), (c!"l", .link (c!"d/f"))])

example : (copyFileAlways {} shelf (c!"/g") (c!"/x/y")).1 = true ∧ see (copyFileAlways {} shelf (c!"/g") (c!"/x/y")).2 [c!"x", c!"y"] = some (.file [3] 0o600) := by decide +kernel
example : (copyFileAlways {} shelf (c!"/l") (c!"/d/e")).1 = true ∧ see (copyFileAlways {} shelf (c!"/l") (c!"/d/e")).2 [c!"d", c!"e", c!"l"] = some (.file [1, 2] 0o640) := by decide +kernel
/-- A link at the destination is replaced, not written through. -/
example : (copyFileAlways {} shelf (c!"/g") (c!"/l")).1 = true ∧ see (copyFileAlways {} shelf (c!"/g") (c!"/l")).2 [c!"l"] = some (.file [3] 0o600) ∧
    see (copyFileAlways {} shelf (c!"/g") (c!"/l")).2 [c!"d", c!"f"] = some (.file [1, 2] 0o640) := by decide +kernel

/-- The conditions of C187 and C188 can be met. -/
example : Name (c!"g") ∧ locate {} shelf (text [c!"g"]) = .ok [c!"g"] ∧ Plain [c!"x", c!"y"] ∧ stat {} shelf (text [c!"x", c!"y"]) = none ∧ NoLinks shelf [c!"x"] := by
  refine ⟨by unfold Name; decide +kernel, by decide +kernel, by unfold Plain Name; decide +kernel, rfl, ?_⟩
  intro q hq s
  have hm : q ∈ [[], [c!"x"]] := by
    have := List.mem_inits _ _ |>.2 hq
    simpa using this
  rw [ne_eq, see_link]
  have : ∀ q ∈ [[], [c!"x"]], (match see shelf q with | some (.link _) => false | _ => true) = true := by decide +kernel
  intro hs
  have := this q hm
  rw [hs] at this
  cases this

/-- A host where nothing can be unlinked. -/
def sticky : Host := { may := fun c _ _ => match c with | .unlink => false | _ => true }

/-- C187, the full statement, is false without `hU`: a file copied into its own directory, where it can not be unlinked, is emptied, and true is returned. -/
theorem C187_refuted : (copyFileAlways sticky shelf (c!"/d/f") (c!"/d")).1 = true ∧
    see shelf [c!"d", c!"f"] = some (.file [1, 2] 0o640) ∧ see (copyFileAlways sticky shelf (c!"/d/f") (c!"/d")).2 [c!"d", c!"f"] = some (.file [] 0o640) := by decide +kernel

/-- A disk that is full: the destination is gone, and so is the source if it was the destination; false is returned. -/
theorem C187_full : let h : Host := { may := fun c _ _ => match c with | .write => false | _ => true }
    (copyFileAlways h shelf (c!"/d/f") (c!"/d")).1 = false ∧ see (copyFileAlways h shelf (c!"/d/f") (c!"/d")).2 [c!"d", c!"f"] = some (.file [] 0o644) := by decide +kernel

/-- C188, the full statement, is false where an empty directory has size 0 (as on some file systems) and stands at the destination: true is returned for an empty source, but
the destination is not a file. -/
theorem C188_refuted : let t : Tree := some (.dir 0o755 [(c!"d", .dir 0o755 [(c!"f", .dir 0o755 [])]), (c!"f", .file [] 0o600)])
    let h : Host := { dirSize := fun _ => 0 }
    (copyFileIfDifferent h t (c!"/f") (c!"/d")).1 = true ∧ see (copyFileIfDifferent h t (c!"/f") (c!"/d")).2 [c!"d", c!"f"] = some (.dir 0o755) := by decide +kernel

/-- Equal bytes, other permissions: CopyFileIfDifferent leaves the permissions of the destination. -/
example : let t : Tree := some (.dir 0o755 [(c!"a", .file [1] 0o600), (c!"b", .file [1] 0o755)])
    (copyFileIfDifferent {} t (c!"/a") (c!"/b")).1 = true ∧ see (copyFileIfDifferent {} t (c!"/a") (c!"/b")).2 [c!"b"] = some (.file [1] 0o755) := by decide +kernel

end Vital.Files
