import Verif.IO.Krtd
/-
  Interrupted writing of a KRTD camera file; property C288.

  The text reaches the file in pieces of any size; an interruption leaves a first part of it.  The code never asks the stream whether it failed.
-/
namespace Vital.IO.KrtdCrash
open Vital Vital.Stream Vital.Sys Vital.IO

variable {ν : Type} {f : NumFmt ν} {good : ν → Prop} {rnd : ν → ν}

/-- The file system when `n` bytes of the text have reached the device, and what the caller gets if that is all the device takes. -/
-- models: vital/io/camera_io.cxx:90-122 (write_krtd_file; 118-121: no check of `ofile`)
def writeUntil (n : Nat) (f : NumFmt ν) (z : ν) (d : Parser.Disk) (w : World) (c : Camera ν) (path : Str) : World × Except Exc Unit :=
  writeText d w path ((cameraText f z c).take n)

theorem writeUntil_all (f : NumFmt ν) (z : ν) (d : Parser.Disk) (w : World) (c : Camera ν) (path : Str) {n : Nat} (hn : (cameraText f z c).length ≤ n) :
    writeUntil n f z d w c path = writeKrtdFile f z d w c path := by
  unfold writeUntil writeKrtdFile
  rw [List.take_of_length_le hn]

/-! ### Specification -/

/-- A law of reading numbers: a first part of the text of a number is read entirely, or refused (`-`, `1e`). -/
def Cuts (f : NumFmt ν) : Prop := ∀ x p q, f.text x = p ++ q → p ≠ [] → (f.parse p).2 = none ∨ (f.parse p).2 = some []

variable [DecidableEq ν]

/-- Full property C288: the file of an interrupted write is refused, or gives what the complete file gives. -/
def C288_statement (f : NumFmt ν) (good : ν → Prop) (z : ν) : Prop := ∀ (c : Camera ν) (n : Nat) (junk : ν), c.All good →
  ∀ s r, readCamera f z junk (some ((cameraText f z c).take n)) = .ok (s, r) → ∃ s', readCamera f z junk (some (cameraText f z c)) = .ok (s', r)

/-! ### Proofs -/

omit [DecidableEq ν] in
theorem readCoefs_end (junk : ν) (n : Nat) : readCoefs f junk (n + 1) (some []) = .error .invalidData := by
  unfold readCoefs readCoef extract
  rfl

omit [DecidableEq ν] in
/-- Numbers from the first part of a text: all of them, or none, or all but the last, which was cut, and nothing is left. -/
theorem cut_coefs (hf : f.Lawful good rnd) (hcut : Cuts f) (junk : ν) {rest : Str} {l : List Str} : ∀ (xs : List ν), (∀ x ∈ xs, good x) → ∀ (s : Str) (n : Nat),
    Sep rest (xs.map f.text ++ l) s →
    (∃ t n', readCoefs f junk xs.length (some (s.take n)) = .ok (some (t.take n'), xs.map rnd) ∧ Sep rest l t) ∨
    readCoefs f junk xs.length (some (s.take n)) = .error .invalidData ∨
    (∃ ys x y, xs = ys ++ [x] ∧ readCoefs f junk xs.length (some (s.take n)) = .ok (some [], ys.map rnd ++ [y])) := by
  intro xs
  induction xs with
  | nil => intro _ s n h; exact .inl ⟨s, n, rfl, h⟩
  | cons x xs ih =>
    intro hg s n h
    obtain ⟨ws, t, hw, ht, h', rfl⟩ : ∃ ws t, (∀ c ∈ ws, isSpace c = true) ∧ Ends t ∧ Sep rest (xs.map f.text ++ l) t ∧ s = ws ++ (f.text x ++ t) := by
      cases h with
      | cons hw hne hs ht h => exact ⟨_, _, hw, ht, h, rfl⟩
    have hlen : (x :: xs).length = xs.length + 1 := rfl
    rw [hlen]
    conv =>
      congr
      · unfold readCoefs
      · congr
        · unfold readCoefs
        · unfold readCoefs
    rw [List.take_append]
    have hw' : ∀ c ∈ ws.take n, isSpace c = true := fun c hc => hw c (List.mem_of_mem_take hc)
    have hx : readCoef f junk (some (ws.take n ++ (f.text x ++ t).take (n - ws.length))) = readCoef f junk (some ((f.text x ++ t).take (n - ws.length))) := by
      unfold readCoef
      rw [extract_spaces _ hw']
    rw [hx]
    by_cases h0 : n - ws.length = 0
    · right; left
      rw [h0]
      rfl
    · by_cases h1 : n - ws.length < (f.text x).length
      · rw [List.take_append_of_le_length (by omega)]
        have hp : (f.text x).take (n - ws.length) ≠ [] := by
          intro e
          have := congrArg List.length e
          rw [List.length_take, List.length_nil] at this
          omega
        have hs : ∀ c ∈ (f.text x).take (n - ws.length), isSpace c = false := fun c hc => hf.nospace x c (List.mem_of_mem_take hc)
        have he := extract_nonempty f.parse hp hs [] junk
        rw [List.append_nil] at he
        unfold readCoef
        rw [he]
        rcases hcut x _ _ (List.take_append_drop (n - ws.length) (f.text x)).symm hp with hc | hc
        · right; left
          rw [hc]
        · rw [hc]
          cases xs with
          | nil => exact .inr (.inr ⟨[], x, _, rfl, rfl⟩)
          | cons y xs =>
            right; left
            simp only [List.length_cons]
            rw [readCoefs_end]
      · rw [List.take_append, List.take_of_length_le (by omega)]
        have he : Ends (t.take (n - ws.length - (f.text x).length)) := by
          intro c hc
          apply ht
          cases t with
          | nil => simp at hc
          | cons a t =>
            cases hk : n - ws.length - (f.text x).length with
            | zero => rw [hk] at hc; cases hc
            | succ k => rw [hk] at hc; exact hc
        have hr := (hf.reads (hg x (by simp))).extract (ws := []) (by simp) he junk
        rw [List.nil_append] at hr
        unfold readCoef
        rw [hr]
        rcases ih (fun y hy => hg y (by simp [hy])) t (n - ws.length - (f.text x).length) h' with ⟨u, n', h2, h3⟩ | h2 | ⟨ys, x', y, h2, h3⟩
        · left
          refine ⟨u, n', ?_, h3⟩
          simp only [h2]
          rfl
        · right; left
          simp only [h2]
        · right; right
          refine ⟨x :: ys, x', y, by rw [h2]; rfl, ?_⟩
          simp only [h3]
          rfl

omit [DecidableEq ν] in
theorem cut_mat (hf : f.Lawful good rnd) (hcut : Cuts f) (junk : ν) {rest : Str} {l : List Str} {m : Mat3 ν} (hm : Mat3.All good m) (s : Str) (n : Nat)
    (h : Sep rest ([m.x.x, m.x.y, m.x.z, m.y.x, m.y.y, m.y.z, m.z.x, m.z.y, m.z.z].map f.text ++ l) s) :
    (∃ t n', readMat f junk (some (s.take n)) = .ok (some (t.take n'), Mat3.map rnd m) ∧ Sep rest l t) ∨
    readMat f junk (some (s.take n)) = .error .invalidData ∨ ∃ m', readMat f junk (some (s.take n)) = .ok (some [], m') := by
  have hg : ∀ x ∈ [m.x.x, m.x.y, m.x.z, m.y.x, m.y.y, m.y.z, m.z.x, m.z.y, m.z.z], good x := by
    intro x hx; simp at hx
    obtain ⟨⟨a1, a2, a3⟩, ⟨b1, b2, b3⟩, ⟨c1, c2, c3⟩⟩ := hm
    rcases hx with rfl | rfl | rfl | rfl | rfl | rfl | rfl | rfl | rfl <;> assumption
  have h3 : cells 3 3 = [m.x.x, m.x.y, m.x.z, m.y.x, m.y.y, m.y.z, m.z.x, m.z.y, m.z.z].length := rfl
  unfold readMat
  rw [h3]
  rcases cut_coefs hf hcut junk _ hg s n h with ⟨t, n', h1, h2⟩ | h1 | ⟨ys, x, y, h1, h2⟩
  · left
    refine ⟨t, n', ?_, h2⟩
    rw [h1]
    rfl
  · right; left
    rw [h1]
  · right; right
    have hy : ys = [m.x.x, m.x.y, m.x.z, m.y.x, m.y.y, m.y.z, m.z.x, m.z.y] := by
      have := congrArg List.dropLast h1
      rw [List.dropLast_concat] at this
      exact this.symm
    subst hy
    rw [h2]
    exact ⟨_, rfl⟩

omit [DecidableEq ν] in
theorem camera_sep (hf : f.Lawful good rnd) (z : ν) (c : Camera ν) : Sep (c!"\n") ([c.k.x.x, c.k.x.y, c.k.x.z, c.k.y.x, c.k.y.y, c.k.y.z, c.k.z.x, c.k.z.y, c.k.z.z].map f.text ++
      ([c.r.x.x, c.r.x.y, c.r.x.z, c.r.y.x, c.r.y.y, c.r.y.z, c.r.z.x, c.r.z.y, c.r.z.z].map f.text ++ ([c.t.x, c.t.y, c.t.z].map f.text ++
      (if c.dist.length = 0 then [z] else c.dist).map f.text))) (cameraText f z c) := by
  have hsep : IsWords (([c.k.x.x, c.k.x.y, c.k.x.z, c.k.y.x, c.k.y.y, c.k.y.z, c.k.z.x, c.k.z.y, c.k.z.z].map f.text ++
      [c.r.x.x, c.r.x.y, c.r.x.z, c.r.y.x, c.r.y.y, c.r.y.z, c.r.z.x, c.r.z.y, c.r.z.z].map f.text) ++ [c.t.x, c.t.y, c.t.z].map f.text ++
      (if c.dist.length = 0 then [z] else c.dist).map f.text)
      (((matText f c.k ++ (c!"\n\n" ++ matText f c.r)) ++ (c!"\n\n" ++ eigenText [rowText f c.t])) ++
        (c!"\n\n" ++ eigenText [(if c.dist.length = 0 then [z] else c.dist).map f.text])) := by
    have hd : (if c.dist.length = 0 then [z] else c.dist) ≠ [] := by
      split
      · simp
      · rename_i h; intro e; rw [e] at h; exact h rfl
    refine (((mat_words hf c.k).sep (mat_words hf c.r) (by simp) (by decide) (by decide)).sep (vec_words hf [c.t.x, c.t.y, c.t.z] (by simp)) (by simp) (by decide) (by decide)).sep
      (vec_words hf _ hd) (by simpa using hd) (by decide) (by decide)
  have h0 := hsep (c!"\n") (ends_cons (by decide) _)
  have etext : cameraText f z c = (((matText f c.k ++ (c!"\n\n" ++ matText f c.r)) ++ (c!"\n\n" ++ eigenText [rowText f c.t])) ++
        (c!"\n\n" ++ eigenText [(if c.dist.length = 0 then [z] else c.dist).map f.text])) ++ (c!"\n") := by
    unfold cameraText
    simp only [List.append_assoc]
  rw [← etext, List.append_assoc, List.append_assoc] at h0
  exact h0

/-- C288: wherever the file was cut, reading it throws invalid data, or gives the camera except for the third number of the translation (which may have been cut) and
    without the distortion coefficients (which are never read, C56). -/
theorem C288_read_partial (hf : f.Lawful good rnd) (hcut : Cuts f) (z : ν) {c : Camera ν} (hc : Mat3.All good c.k ∧ Mat3.All good c.r ∧ c.t.All good) (junk : ν) (n : Nat) :
    readCamera f z junk (some ((cameraText f z c).take n)) = .error .invalidData ∨
    ∃ s tz, readCamera f z junk (some ((cameraText f z c).take n)) = .ok (s, { k := Mat3.map rnd c.k, r := Mat3.map rnd c.r, t := ⟨rnd c.t.x, rnd c.t.y, tz⟩, dist := [] }) := by
  have hdrop : dropPlaceholder z ([] : List ν) = [] := by unfold dropPlaceholder; simp
  unfold readCamera
  rcases cut_mat hf hcut junk hc.1 (cameraText f z c) n (camera_sep hf z c) with ⟨t1, n1, h1, k1⟩ | h1 | ⟨m, h1⟩
  · rw [h1]
    simp only
    rcases cut_mat hf hcut junk hc.2.1 t1 n1 k1 with ⟨t2, n2, h2, k2⟩ | h2 | ⟨m, h2⟩
    · rw [h2]
      simp only
      have hg : ∀ x ∈ [c.t.x, c.t.y, c.t.z], good x := by
        intro x hx; simp at hx
        obtain ⟨a, b, d⟩ := hc.2.2
        rcases hx with rfl | rfl | rfl <;> assumption
      rcases cut_coefs hf hcut junk [c.t.x, c.t.y, c.t.z] hg t2 n2 k2 with ⟨t, n', h3, h4⟩ | h3 | ⟨ys, x, y, h3, h4⟩
      · right
        refine ⟨some (t.take n'), rnd c.t.z, ?_⟩
        have h3' : readCoefs f junk 3 (some (t2.take n2)) = _ := h3
        unfold readVec3
        rw [h3']
        simp only [List.map_cons, List.map_nil, readDyn_nothing, hdrop]
      · left
        have h3' : readCoefs f junk 3 (some (t2.take n2)) = _ := h3
        unfold readVec3
        rw [h3']
      · right
        have hy : ys = [c.t.x, c.t.y] := by
          have := congrArg List.dropLast h3
          rw [List.dropLast_concat] at this
          exact this.symm
        subst hy
        refine ⟨some [], y, ?_⟩
        have h4' : readCoefs f junk 3 (some (t2.take n2)) = _ := h4
        unfold readVec3
        rw [h4']
        simp only [List.map_cons, List.map_nil, List.cons_append, List.nil_append, readDyn_nothing, hdrop]
    · left; rw [h2]
    · left; rw [h2]; rfl
  · left; rw [h1]
  · left; rw [h1]; rfl

/-- The text up to and including the translation. -/
def upToTranslation (f : NumFmt ν) (c : Camera ν) : Str := matText f c.k ++ c!"\n\n" ++ matText f c.r ++ c!"\n\n" ++ eigenText [rowText f c.t]

/-- C288: if the translation reached the file, the camera is what the complete file gives. -/
theorem C288_complete_partial (hf : f.Lawful good rnd) (z : ν) {c : Camera ν} (hc : Mat3.All good c.k ∧ Mat3.All good c.r ∧ c.t.All good) (junk : ν) {n : Nat}
    (hn : (upToTranslation f c).length ≤ n) :
    ∃ s s', readCamera f z junk (some ((cameraText f z c).take n)) = .ok (s, { c.map rnd with dist := [] }) ∧
      readCamera f z junk (some (cameraText f z c)) = .ok (s', { c.map rnd with dist := [] }) := by
  obtain ⟨s', hs'⟩ := C56_partial (rest := []) hf z hc junk
  rw [List.append_nil] at hs'
  have hw : IsWords (([c.k.x.x, c.k.x.y, c.k.x.z, c.k.y.x, c.k.y.y, c.k.y.z, c.k.z.x, c.k.z.y, c.k.z.z].map f.text ++
      [c.r.x.x, c.r.x.y, c.r.x.z, c.r.y.x, c.r.y.y, c.r.y.z, c.r.z.x, c.r.z.y, c.r.z.z].map f.text) ++ [c.t.x, c.t.y, c.t.z].map f.text)
      ((matText f c.k ++ (c!"\n\n" ++ matText f c.r)) ++ (c!"\n\n" ++ eigenText [rowText f c.t])) :=
    ((mat_words hf c.k).sep (mat_words hf c.r) (by simp) (by decide) (by decide)).sep (vec_words hf [c.t.x, c.t.y, c.t.z] (by simp)) (by simp) (by decide) (by decide)
  have e1 : (matText f c.k ++ (c!"\n\n" ++ matText f c.r)) ++ (c!"\n\n" ++ eigenText [rowText f c.t]) = upToTranslation f c := by
    unfold upToTranslation
    simp only [List.append_assoc]
  rw [e1] at hw
  have e2 : (cameraText f z c).take n = upToTranslation f c ++
      (c!"\n\n" ++ (eigenText [(if c.dist.length = 0 then [z] else c.dist).map f.text] ++ c!"\n")).take (n - (upToTranslation f c).length) := by
    have : cameraText f z c = upToTranslation f c ++ (c!"\n\n" ++ (eigenText [(if c.dist.length = 0 then [z] else c.dist).map f.text] ++ c!"\n")) := by
      unfold cameraText upToTranslation
      simp only [List.append_assoc]
    rw [this, List.take_append, List.take_of_length_le hn]
  have hend : Ends ((c!"\n\n" ++ (eigenText [(if c.dist.length = 0 then [z] else c.dist).map f.text] ++ c!"\n")).take (n - (upToTranslation f c).length)) := by
    intro d hd
    cases hk : n - (upToTranslation f c).length with
    | zero => rw [hk] at hd; cases hd
    | succ k =>
      rw [hk] at hd
      have : d = '\n' := by
        simp only [List.cons_append, List.take_succ_cons, List.head?_cons, Option.some.injEq] at hd
        exact hd.symm
      subst this
      decide
  have h0 := hw _ hend
  rw [← e2, List.append_assoc] at h0
  have h0' := h0
  rw [← List.append_nil ([c.t.x, c.t.y, c.t.z].map f.text)] at h0'
  obtain ⟨t1, h1, k1⟩ := readMat_sep hf (junk := junk) hc.1 h0'
  obtain ⟨t2, h2, k2⟩ := readMat_sep hf (junk := junk) hc.2.1 k1
  obtain ⟨t3, h3, k3⟩ := readVec3_sep hf (junk := junk) hc.2.2 k2
  refine ⟨some t3, s', ?_, hs'⟩
  unfold readCamera
  simp only [h1, h2, h3, readDyn_nothing]
  have : dropPlaceholder z ([] : List ν) = [] := by unfold dropPlaceholder; simp
  rw [this]
  rfl

omit [DecidableEq ν] in
/-- C288: no other file changes; the file itself is unchanged or a first part of the text. -/
theorem C288_disk {d : Parser.Disk} {w w' : World} {n : Nat} {z : ν} {c : Camera ν} {path : Str} {r : Except Exc Unit}
    (hdir : ∀ w p w1, d.makeDir w p = some w1 → w1.content = w.content) (hw : writeUntil n f z d w c path = (w', r)) :
    (∀ p, p ≠ path → w'.content p = w.content p) ∧ (w'.content path = w.content path ∨ w'.content path = some ((cameraText f z c).take n)) := by
  unfold writeUntil writeText at hw
  split at hw
  · cases hw; exact ⟨fun _ _ => rfl, .inl rfl⟩
  · simp only at hw
    split at hw
    · cases hw; exact ⟨fun _ _ => rfl, .inl rfl⟩
    · rename_i w1 h1
      have hc : w1.content = w.content := by
        split at h1
        · cases h1; rfl
        · exact hdir _ _ _ h1
      cases hw
      split
      · refine ⟨fun p hp => by simp [Parser.World.store, hp, hc], .inr (by simp [Parser.World.store])⟩
      · exact ⟨fun p _ => by rw [hc], .inl (by rw [hc])⟩

/-- C288 on files: the interrupted write, which reports nothing, then `read_krtd_file`. -/
theorem C288_files_partial (hf : f.Lawful good rnd) (hcut : Cuts f) (z : ν) {c : Camera ν} (hc : Mat3.All good c.k ∧ Mat3.All good c.r ∧ c.t.All good) (junk : ν) (n : Nat)
    {d : Parser.Disk} {w w1 : World} {path : Str} (hpath : path ≠ []) (hdir : w.isDir path = false) (hprep : Prepared d w path w1)
    (hcan : d.canWrite w1 path = true) (hw1 : w1.isDir path = false) :
    ∃ w', writeUntil n f z d w c path = (w', .ok ()) ∧ (readKrtdFile f z junk w' path = .error .invalidData ∨
      ∃ tz, readKrtdFile f z junk w' path = .ok { k := Mat3.map rnd c.k, r := Mat3.map rnd c.r, t := ⟨rnd c.t.x, rnd c.t.y, tz⟩, dist := [] }) := by
  refine ⟨Parser.World.store w1 path ((cameraText f z c).take n), writeText_ok _ hdir hprep hcan, ?_⟩
  have hdr : fileIsDirectory (Parser.World.store w1 path ((cameraText f z c).take n)) path = false := by
    unfold fileIsDirectory Parser.World.store
    simp [hw1]
  unfold readKrtdFile
  rw [if_neg (by unfold fileExists Parser.World.store; simp [hpath]), hdr]
  unfold Parser.World.store
  simp only [if_true, Bool.false_eq_true, if_false]
  rcases C288_read_partial hf hcut z hc junk n with h | ⟨s, tz, h⟩
  · left; simp only [h]
  · right; exact ⟨tz, by simp only [h]⟩

/-! ### Examples -/

/-- The law holds for integers. -/
theorem intFmt_cuts : Cuts intFmt := by
  have hd : ∀ ds : Str, (∀ c ∈ ds, isDigit c = true) → ds.dropWhile isDigit = [] := by
    intro ds
    induction ds with
    | nil => intro _; rfl
    | cons a ds ih =>
      intro h
      rw [List.dropWhile_cons, if_pos (h a (by simp)), ih (fun c hc => h c (by simp [hc]))]
  have hx : ∀ (lo hi : Int) (s : Str), (∀ c ∈ (splitSign s).2, isDigit c = true) → (intEx lo hi s).2 = none ∨ (intEx lo hi s).2 = some [] := by
    intro lo hi s h
    unfold intEx
    simp only [hd _ h]
    repeat' split
    all_goals simp
  intro x p q e hp
  apply hx
  have e' : intStr x = p ++ q := e
  unfold intStr at e'
  split at e'
  · cases p with
    | nil => exact absurd rfl hp
    | cons a p =>
      rw [List.cons_append, List.cons.injEq] at e'
      obtain ⟨rfl, e'⟩ := e'
      intro c hc
      have hc' : c ∈ p := hc
      exact natStr_digits x.natAbs c (by rw [e']; simp [hc'])
  · have hall : ∀ c ∈ p, isDigit c = true := fun c hc => natStr_digits x.natAbs c (by rw [e']; simp [hc])
    have : (splitSign p).2 = p := by
      unfold splitSign
      split
      · exact absurd (hall '-' (by simp)) (by decide)
      · exact absurd (hall '+' (by simp)) (by decide)
      · rfl
    rw [this]
    exact hall

def plain : Camera Int := ⟨⟨⟨100, 0, 32⟩, ⟨0, 100, 24⟩, ⟨0, 0, 1⟩⟩, ⟨⟨1, 0, 0⟩, ⟨0, 1, 0⟩, ⟨0, 0, 1⟩⟩, ⟨5, -6, 78⟩, []⟩

theorem plain_ok : plain.All (fun n => -2147483648 ≤ n ∧ n ≤ 2147483647) := by simp [Camera.All, Mat3.All, Vec3.All, plain]

/-- C288 is false of the code: the last number of the translation, cut in the middle, is read as another one. -/
theorem C288_refuted : ¬ C288_statement intFmt (fun n => -2147483648 ≤ n ∧ n ≤ 2147483647) 0 := by
  intro h
  have e1 : (readCamera intFmt 0 0 (some ((cameraText intFmt 0 plain).take ((upToTranslation intFmt plain).length - 1)))).toOption.map (fun p => p.2.t) = some ⟨5, -6, 7⟩ := by
    decide +kernel
  have e2 : (readCamera intFmt 0 0 (some (cameraText intFmt 0 plain))).toOption.map (fun p => p.2.t) = some ⟨5, -6, 78⟩ := by decide +kernel
  cases hr : readCamera intFmt 0 0 (some ((cameraText intFmt 0 plain).take ((upToTranslation intFmt plain).length - 1))) with
  | error e => rw [hr] at e1; cases e1
  | ok v =>
    obtain ⟨s, r⟩ := v
    obtain ⟨s', h'⟩ := h plain _ 0 plain_ok s r hr
    rw [hr] at e1
    rw [h'] at e2
    simp only [Except.toOption, Option.map_some] at e1 e2
    rw [e1] at e2
    revert e2
    decide

/-- The file cut just after the translation, and cut in the middle of it. -/
example : (readCamera intFmt 0 0 (some ((cameraText intFmt 0 plain).take (upToTranslation intFmt plain).length))).toOption.map (·.2) = some plain ∧
    readCamera intFmt 0 0 (some ((cameraText intFmt 0 plain).take ((upToTranslation intFmt plain).length - 4))) = .error .invalidData := by
  obtain ⟨s, _, h, _⟩ := C288_complete_partial intFmt_lawful 0 (c := plain) ⟨plain_ok.1, plain_ok.2.1, plain_ok.2.2.1⟩ 0 (Nat.le_refl _)
  refine ⟨?_, ?_⟩
  · rw [h]; rfl
  · rcases C288_read_partial intFmt_lawful intFmt_cuts 0 (c := plain) ⟨plain_ok.1, plain_ok.2.1, plain_ok.2.2.1⟩ 0 ((upToTranslation intFmt plain).length - 4) with h | ⟨s, tz, h⟩
    · exact h
    · have e : (readCamera intFmt 0 0 (some ((cameraText intFmt 0 plain).take ((upToTranslation intFmt plain).length - 4)))).toOption.map (fun p => p.2.t) = none := by decide +kernel
      rw [h] at e
      cases e

end Vital.IO.KrtdCrash
