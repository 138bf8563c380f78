import Verif.Sys.PathsProps
/- The checks of image_io::load and save (vital/algo/image_io.cxx): property C117. -/
namespace Vital.ImageIo
open Vital Vital.Sys

/-- What `load` and `save` throw: the library's exceptions with their path, or what the implementation throws. -/
inductive Err (E : Type) where
  | pathNotExists (p : Str)
  | pathNotAFile (p : Str)
  | pathNotADirectory (p : Str)
  | impl (e : E)

variable {E I : Type}

/-- Pass on what the implementation does. -/
def run {A : Type} : Except E A → Except (Err E) A
  | .ok a => .ok a
  | .error e => .error (.impl e)

-- models: vital/algo/image_io.cxx:60-75 (load)
def load (w : World) (impl : Str → Except E I) (filename : Str) : Except (Err E) I :=
  if fileExists w filename = false then .error (.pathNotExists filename)
  else if fileIsDirectory w filename then .error (.pathNotAFile filename)
  else run (impl filename)

-- models: vital/algo/image_io.cxx:78-97 (save)
def save (w : World) (impl : Str → I → Except E Unit) (filename : Str) (data : I) : Except (Err E) Unit :=
  let dir := getFilenamePath w (collapseFullPath w filename)
  if fileExists w dir = false then .error (.pathNotExists dir)
  else if fileIsDirectory w dir = false then .error (.pathNotADirectory dir)
  else run (impl filename data)

/-! ### Specification -/

/-- The absolute path with the given names. -/
def absPath : List Str → Str
  | [] => c!"/"
  | n :: ns => ((n :: ns).map (fun c => '/' :: c)).flatten

/-! ### Proofs -/

theorem flat_snoc (ns : List Str) (n : Str) : absPath (ns ++ [n]) = (ns.map (fun c => '/' :: c)).flatten ++ '/' :: n := by
  cases ns with
  | nil => simp [absPath]
  | cons a ns => simp [absPath]

theorem adjacent_skip : ∀ (x r : Str), '/' ∉ x → adjacentSlashes (x ++ r) = adjacentSlashes r := by
  intro x
  induction x with
  | nil => intro r _; rfl
  | cons a x ih =>
    intro r h
    simp only [List.mem_cons, not_or] at h
    show adjacentSlashes (a :: (x ++ r)) = _
    have : adjacentSlashes (a :: (x ++ r)) = adjacentSlashes (x ++ r) := by
      generalize x ++ r = t
      conv => lhs; unfold adjacentSlashes
      split
      · rename_i e; cases e; exact absurd rfl h.1
      · rename_i e; cases e; rfl
      · rename_i e; cases e
    rw [this, ih r h.2]

theorem plain_notin {x : Str} (h : Plain x) : '/' ∉ x ∧ '\\' ∉ x := by
  constructor <;> intro hc <;> have := h.noSlash _ hc <;> revert this <;> decide

theorem adjacent_flat : ∀ (ns : List Str), (∀ n ∈ ns, Plain n) → adjacentSlashes ((ns.map (fun c => '/' :: c)).flatten) = false := by
  intro ns
  induction ns with
  | nil => intro _; rfl
  | cons n ns ih =>
    intro h
    have hn := h n (by simp)
    have ih' := ih (fun m hm => h m (by simp [hm]))
    simp only [List.map_cons, List.flatten_cons]
    cases n with
    | nil => exact absurd rfl hn.ne
    | cons a x =>
      have ha : a ≠ '/' := by
        intro e
        exact (plain_notin hn).1 (by simp [e])
      have hx : '/' ∉ (a :: x) := (plain_notin hn).1
      have : adjacentSlashes ('/' :: (a :: x) ++ (ns.map (fun c => '/' :: c)).flatten) = adjacentSlashes ((a :: x) ++ (ns.map (fun c => '/' :: c)).flatten) := by
        show adjacentSlashes ('/' :: a :: (x ++ _)) = _
        conv => lhs; unfold adjacentSlashes
        split
        · rename_i e; cases e; exact absurd rfl ha
        · rename_i e; cases e; rfl
        · rename_i e; cases e
      rw [this, adjacent_skip _ _ hx, ih']

theorem slashNormal_abs {ns : List Str} {n : Str} (hp : ∀ m ∈ ns ++ [n], Plain m) : SlashNormal (absPath (ns ++ [n])) := by
  have hn := hp n (by simp)
  refine ⟨?_, ?_, ?_, ?_⟩
  · rw [flat_snoc]
    intro h
    rcases List.mem_append.1 h with h | h
    · obtain ⟨l, hl, hc⟩ := List.mem_flatten.1 h
      obtain ⟨m, hm, rfl⟩ := List.mem_map.1 hl
      rcases List.mem_cons.1 hc with hc | hc
      · cases hc
      · exact (plain_notin (hp m (by simp [hm]))).2 hc
    · rcases List.mem_cons.1 h with h | h
      · cases h
      · exact (plain_notin hn).2 h
  · intro a b e
    have h1 := (adjacentSlashes_iff _).2 ⟨a, b, e⟩
    have h2 := adjacent_flat (ns ++ [n]) hp
    have : absPath (ns ++ [n]) = ((ns ++ [n]).map (fun c => '/' :: c)).flatten := by
      rw [flat_snoc]
      simp
    rw [this, h2] at h1
    cases h1
  · rw [flat_snoc]
    cases ns <;> simp
  · rw [flat_snoc]
    cases n with
    | nil => exact absurd rfl hn.ne
    | cons a x =>
      intro h
      have : (a :: x).getLast? = some '/' := by
        rw [List.getLast?_append] at h
        simpa using h
      exact (plain_notin hn).1 (List.mem_of_getLast? this)

theorem beforeLast_snoc (a n : Str) (h : '/' ∉ n) : beforeLast '/' (a ++ '/' :: n) = some a := by
  obtain ⟨h1, h2, h3⟩ := afterLast_spec '/' (a ++ '/' :: n)
  cases hb : beforeLast '/' (a ++ '/' :: n) with
  | none => exact absurd (by simp) (h2 hb).1
  | some r =>
    have e := h3 r hb
    have e' := congrArg List.reverse e
    simp only [List.reverse_append, List.reverse_cons, List.append_assoc, List.reverse_nil, List.nil_append] at e'
    have key : ∀ (x y u v : Str), '/' ∉ x → '/' ∉ u → x ++ '/' :: y = u ++ '/' :: v → y = v := by
      intro x
      induction x with
      | nil =>
        intro y u v _ hu e
        cases u with
        | nil => simpa using e
        | cons c u =>
          simp only [List.nil_append, List.cons_append, List.cons.injEq] at e
          exact absurd (List.mem_cons.2 (Or.inl e.1)) hu
      | cons c x ih =>
        intro y u v hx hu e
        cases u with
        | nil =>
          simp only [List.nil_append, List.cons_append, List.cons.injEq] at e
          exact absurd (by simp [e.1]) hx
        | cons d u =>
          simp only [List.cons_append, List.cons.injEq] at e
          exact ih y u v (fun hc => hx (by simp [hc])) (fun hc => hu (by simp [hc])) e.2
    have := key n.reverse a.reverse (afterLast '/' (a ++ '/' :: n)).reverse r.reverse (by simpa using h) (by simpa using h1) (by simpa using e')
    have := congrArg List.reverse this
    simp only [List.reverse_reverse] at this
    rw [this]

/-- The directory of a file, by names. -/
theorem getFilenamePath_abs (w : World) {ns : List Str} {n : Str} (hp : ∀ m ∈ ns ++ [n], Plain m) (hc : ns ≠ [c!":"]) :
    getFilenamePath w (absPath (ns ++ [n])) = absPath ns := by
  unfold getFilenamePath
  rw [convert_normal w (slashNormal_abs hp), flat_snoc, beforeLast_snoc _ _ (plain_notin (hp n (by simp))).1]
  simp only
  cases ns with
  | nil => simp [absPath]
  | cons a ns =>
    have ha := hp a (by simp)
    rw [if_neg, if_neg (by simp)]
    · rfl
    · rintro ⟨h1, h2⟩
      cases a with
      | nil => exact ha.ne rfl
      | cons c a =>
        simp only [List.map_cons, List.flatten_cons, List.cons_append, List.length_cons, List.length_append] at h1 h2
        have h3 : a.length = 0 ∧ ((ns.map (fun c => '/' :: c)).flatten).length = 0 := by omega
        have h4 : a = [] := List.length_eq_zero_iff.1 h3.1
        have h5 : ns = [] := by
          cases ns with
          | nil => rfl
          | cons b ns => simp at h3
        have h6 : c = ':' := by simpa using h2
        exact hc (by rw [h4, h5, h6])

/-- C117, loading: the implementation is called, with the name given, exactly when the name is that of an existing file that is not a
    directory; otherwise the exception says which it is. -/
theorem C117_load (w : World) (impl : Str → Except E I) (filename : Str) :
    ((w.readable filename = false ∨ filename = []) → load w impl filename = .error (.pathNotExists filename)) ∧
    (filename ≠ [] → w.readable filename = true → w.isDir filename = true → load w impl filename = .error (.pathNotAFile filename)) ∧
    (filename ≠ [] → w.readable filename = true → w.isDir filename = false →
      (∀ i, impl filename = .ok i → load w impl filename = .ok i) ∧ ∀ e, impl filename = .error e → load w impl filename = .error (.impl e)) := by
  unfold load fileExists fileIsDirectory
  refine ⟨?_, ?_, ?_⟩
  · rintro (h | rfl) <;> simp_all
  · intro h1 h2 h3
    simp [h1, h2, h3]
  · intro h1 h2 h3
    simp only [h2, h3, Bool.and_true, Bool.and_false, Bool.false_eq_true, if_false]
    rw [if_neg (by simpa using h1)]
    exact ⟨fun i h => by rw [h]; rfl, fun e h => by rw [h]; rfl⟩

/-- C117, saving: the implementation is called, with the name and the image given, exactly when the directory of the file is an existing directory;
    otherwise the exception says what is wrong with it. The name stands for the absolute path with the names `ns` and then `n`. -/
theorem C117_save (w : World) (impl : Str → I → Except E Unit) (filename : Str) (data : I) {ns : List Str} {n : Str} (hp : ∀ m ∈ ns ++ [n], Plain m)
    (hc : ns ≠ [c!":"]) (hf : collapseFullPath w filename = absPath (ns ++ [n])) :
    (w.readable (absPath ns) = false → save w impl filename data = .error (.pathNotExists (absPath ns))) ∧
    (w.readable (absPath ns) = true → w.isDir (absPath ns) = false → save w impl filename data = .error (.pathNotADirectory (absPath ns))) ∧
    (w.readable (absPath ns) = true → w.isDir (absPath ns) = true →
      (impl filename data = .ok () → save w impl filename data = .ok ()) ∧ ∀ e, impl filename data = .error e → save w impl filename data = .error (.impl e)) := by
  have hne : absPath ns ≠ [] := by cases ns <;> simp [absPath]
  unfold save
  rw [hf, getFilenamePath_abs w hp hc]
  unfold fileExists fileIsDirectory
  refine ⟨fun h => ?_, fun h1 h2 => ?_, fun h1 h2 => ?_⟩
  · simp [h]
  · simp [h1, h2, hne]
  · simp only [h1, h2, Bool.and_true]
    rw [if_neg (by simpa using hne), if_neg (by simpa using hne)]
    exact ⟨fun h => by rw [h]; rfl, fun e h => by rw [h]; rfl⟩

/-- A relative name in a working directory, an existing and a missing directory. -/
example : collapseFullPath { cwd := some (c!"/work") } (c!"out/../img/a.png") = absPath [c!"work", c!"img", c!"a.png"] ∧
    (∀ m ∈ [c!"work", c!"img"] ++ [c!"a.png"], Plain m) ∧
    getFilenamePath {} (c!"/work/img/a.png") = absPath [c!"work", c!"img"] := by
  refine ⟨by decide +kernel, ?_, by decide +kernel⟩
  intro m hm
  simp only [List.cons_append, List.nil_append, List.mem_cons, List.not_mem_nil, or_false] at hm
  rcases hm with rfl | rfl | rfl <;> exact ⟨by decide, by decide, by decide, by decide⟩

end Vital.ImageIo
