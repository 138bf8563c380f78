import Verif.IO.PlyProps
/- Property C54: PLY files read back. -/
namespace Vital.IO
open Vital Vital.Stream Vital.Sys

variable {ν : Type} {f : NumFmt ν} {good : ν → Prop} {rnd : ν → ν}

/-- What a landmark looks like after writing and reading: the scale is not stored. -/
def readBack (rnd : ν → ν) (k : Consts ν) (m : Landmark ν) : Landmark ν :=
  { loc := m.loc.map rnd, scale := k.one, normal := m.normal.map rnd, color := m.color, observations := m.observations }

def plyNames : List Str :=
  [c!"x", c!"y", c!"z", c!"nx", c!"ny", c!"nz", c!"red", c!"green", c!"blue", c!"track_id", c!"observations"]

def plyProps : List VProp := [.vx, .vy, .vz, .nx, .ny, .nz, .cr, .cg, .cb, .index, .observations]

theorem plyNames_props : plyNames.map propOf = plyProps := by decide +kernel

theorem line_words (hf : f.Lawful good rnd) (e : Int × Landmark ν) :
    IsWords [f.text e.2.loc.x, f.text e.2.loc.y, f.text e.2.loc.z, f.text e.2.normal.x, f.text e.2.normal.y, f.text e.2.normal.z,
      natStr e.2.color.r.val, natStr e.2.color.g.val, natStr e.2.color.b.val, intStr e.1, natStr e.2.observations.val] (plyLine f e) :=
  ((num_word hf _).words.blank (num_word hf _).words (by simp)).blank (num_word hf _).words (by simp)
    |>.blank (num_word hf _).words (by simp) |>.blank (num_word hf _).words (by simp) |>.blank (num_word hf _).words (by simp)
    |>.blank (nat_word _).words (by simp) |>.blank (nat_word _).words (by simp) |>.blank (nat_word _).words (by simp)
    |>.blank (int_word _).words (by simp) |>.blank (nat_word _).words (by simp)

theorem reads_token {α : Type} {p : Extractor α} {t : Str} {x : α} (h : Reads p t x) (v : α) : (extract p (some t) v).2 = x := by
  have := h.extract (ws := []) (by simp) ends_nil v
  simp only [List.nil_append, List.append_nil] at this
  rw [this]

/-- The ids fit `int64_t`. -/
def Int64 (i : Int) : Prop := -9223372036854775808 ≤ i ∧ i ≤ 9223372036854775807

theorem vertexOf_line (hf : f.Lawful good rnd) (k : Consts ν) (n : Nat) {e : Int × Landmark ν} (hl : e.2.loc.All good) (hnrm : e.2.normal.All good)
    (hi : Int64 e.1) : vertexOf f k plyProps n (words (plyLine f e)) = (e.1, readBack rnd k e.2) := by
  rw [(line_words hf e).words]
  have hid : Reads cInt64 (intStr e.1) e.1 := intEx_reads _ _ _ hi.1 hi.2
  have hobs : Reads cUnsigned (natStr e.2.observations.val) e.2.observations.val := natEx_reads _ _ e.2.observations.isLt
  have eo : toUnsigned e.2.observations.val = e.2.observations := by
    apply Fin.ext
    exact Nat.mod_eq_of_lt e.2.observations.isLt
  unfold vertexOf plyProps
  simp only [putFields, putField, reads_token (hf.reads hl.1), reads_token (hf.reads hl.2.1), reads_token (hf.reads hl.2.2),
    reads_token (hf.reads hnrm.1), reads_token (hf.reads hnrm.2.1), reads_token (hf.reads hnrm.2.2), reads_token (cInt_byte _), toByte_val,
    reads_token hid, reads_token hobs, eo]
  rfl

theorem no_newline {s : Str} (h : ∀ c ∈ s, isSpace c = false) : '\n' ∉ s := by
  intro hc
  have := h _ hc
  revert this
  decide

theorem line_no_newline (hf : f.Lawful good rnd) (e : Int × Landmark ν) : '\n' ∉ plyLine f e := by
  have hx : ∀ x, '\n' ∉ f.text x := fun x => no_newline (hf.nospace x)
  have hn : ∀ n, '\n' ∉ natStr n := fun n => no_newline (natStr_no_space n)
  have hi : ∀ n, '\n' ∉ intStr n := fun n => no_newline (intStr_no_space n)
  unfold plyLine
  simp [hx, hn, hi]

theorem header_no_newline (n : Nat) : ∀ l ∈ plyHeader n, '\n' ∉ l := by
  have hn : '\n' ∉ natStr n := no_newline (natStr_no_space n)
  intro l hl
  simp only [plyHeader, List.mem_cons, List.not_mem_nil, or_false] at hl
  rcases hl with rfl | rfl | rfl | rfl | rfl | rfl | rfl | rfl | rfl | rfl | rfl | rfl | rfl | rfl | rfl | rfl
  all_goals first | (simp [hn]; done) | decide

theorem plyText_lines (hf : f.Lawful good rnd) (m : List (Int × Landmark ν)) :
    Parser.fileLines (plyText f m) = plyHeader m.length ++ m.map (plyLine f) := by
  refine Parser.fileLines_of ⟨?_, .inl rfl⟩
  intro l hl
  rcases List.mem_append.1 hl with hl | hl
  · exact header_no_newline _ l hl
  · obtain ⟨e, _, rfl⟩ := List.mem_map.1 hl
    exact line_no_newline hf e

theorem element_words (n : Nat) : words (c!"element vertex " ++ natStr n) = [c!"element", c!"vertex", natStr n] := by
  have h1 : IsWords [c!"element", c!"vertex"] (c!"element vertex") := by
    have := IsWords.blanks [c!"element", c!"vertex"] (by decide)
    exact this
  exact (h1.blank (nat_word n).words (by simp)).words

theorem plyHeader_ok (n : Nat) : Header (plyHeader n).dropLast n plyNames := by
  have hw := element_words n
  constructor
  · intro l hl
    simp only [plyHeader, List.dropLast, List.mem_cons, List.not_mem_nil, or_false] at hl
    rcases hl with rfl | rfl | rfl | rfl | rfl | rfl | rfl | rfl | rfl | rfl | rfl | rfl | rfl | rfl | rfl
    all_goals first | decide | (intro e; simp at e)
  · refine ⟨[c!"ply", c!"format ascii 1.0", c!"comment written by VITAL"], c!"element vertex " ++ natStr n,
      [c!"property float x", c!"property float y", c!"property float z", c!"property float nx", c!"property float ny", c!"property float nz",
       c!"property uchar red", c!"property uchar green", c!"property uchar blue", c!"property uint track_id", c!"property uint observations"],
      [], rfl, hw, ?_, ?_, by simp, by simp⟩
    · intro x hx hv
      obtain ⟨k, hk⟩ := hv
      have e1 : words (c!"ply") = [c!"ply"] := by decide +kernel
      have e2 : words (c!"format ascii 1.0") = [c!"format", c!"ascii", c!"1.0"] := by decide +kernel
      have e3 : words (c!"comment written by VITAL") = [c!"comment", c!"written", c!"by", c!"VITAL"] := by decide +kernel
      simp only [List.mem_cons, List.not_mem_nil, or_false] at hx
      rcases hx with rfl | rfl | rfl
      · rw [e1] at hk; simp at hk
      · rw [e2] at hk; simp at hk
      · rw [e3] at hk; simp at hk
    · exact .prop (t := c!"float") (by decide +kernel) (.prop (t := c!"float") (by decide +kernel) (.prop (t := c!"float") (by decide +kernel)
        (.prop (t := c!"float") (by decide +kernel) (.prop (t := c!"float") (by decide +kernel) (.prop (t := c!"float") (by decide +kernel)
        (.prop (t := c!"uchar") (by decide +kernel) (.prop (t := c!"uchar") (by decide +kernel) (.prop (t := c!"uchar") (by decide +kernel)
        (.prop (t := c!"uint") (by decide +kernel) (.prop (t := c!"uint") (by decide +kernel) .nil))))))))))

theorem line_solid (hf : f.Lawful good rnd) (m : List (Int × Landmark ν)) : solid (m.map (plyLine f)) = m.map (plyLine f) := by
  unfold solid
  rw [List.filter_eq_self]
  intro l hl
  obtain ⟨e, _, rfl⟩ := List.mem_map.1 hl
  have := (line_words hf e).words
  simp only [decide_eq_true_eq]
  intro hb
  rw [words_blank.2 hb] at this
  simp at this

theorem vertices_lines (hf : f.Lawful good rnd) (k : Consts ν) (m : List (Int × Landmark ν))
    (hm : ∀ e ∈ m, e.2.loc.All good ∧ e.2.normal.All good ∧ Int64 e.1) : ∀ n,
    vertices f k plyProps n (m.map (plyLine f)) = m.map (fun e => (e.1, readBack rnd k e.2)) := by
  induction m with
  | nil => intro n; rfl
  | cons e m ih =>
    intro n
    have he := hm e (by simp)
    show vertexOf f k plyProps n (words (plyLine f e)) :: vertices f k plyProps (n + 1) (m.map (plyLine f)) = _
    rw [vertexOf_line hf k n he.1 he.2.1 he.2.2, ih (fun x hx => hm x (by simp [hx]))]
    rfl

theorem putAll_ascending {α : Type} (es : List (Int × α)) : ∀ m : List (Int × α), Ascending (m ++ es) → putAll m es = m ++ es := by
  induction es with
  | nil => intro m _; simp [putAll]
  | cons e es ih =>
    intro m h
    have h1 : mapPut m e.1 e.2 = m ++ [e] := by
      apply mapPut_last
      intro x hx
      exact (List.pairwise_append.1 h).2.2 x hx e (by simp)
    show putAll (mapPut m e.1 e.2) es = _
    rw [h1, ih (m ++ [e]) (by simpa using h)]
    simp

/-- C54: reading the text written for a landmark map yields the same ids, each with its location, normal (up to the printed
    precision), colour and number of observations. -/
theorem C54_round_trip (hf : f.Lawful good rnd) (k : Consts ν) {m : List (Int × Landmark ν)} (ha : Ascending m)
    (hm : ∀ e ∈ m, e.2.loc.All good ∧ e.2.normal.All good ∧ Int64 e.1) (hlen : m.length < 4294967295) :
    plyRead f k (plyText f m) = m.map (fun e => (e.1, readBack rnd k e.2)) := by
  have hlines : Parser.fileLines (plyText f m) = (plyHeader m.length).dropLast ++ c!"end_header" :: m.map (plyLine f) := by
    rw [plyText_lines hf]; rfl
  have h := (C53_partial f k hlines (plyHeader_ok m.length) hlen)
  rw [h.1, line_solid hf, List.take_of_length_le (by simp), plyNames_props, vertices_lines hf k m hm, putAll_ascending]
  · rfl
  · show Ascending (m.map _)
    exact List.pairwise_map.2 ha

/-- The directory a file is written to exists, or is created. -/
def Prepared (d : Parser.Disk) (w : World) (path : Str) (w1 : World) : Prop :=
  let parent := getFilenamePath w (collapseFullPath w path)
  if w.isDir parent = true ∧ parent ≠ [] then w1 = w else d.makeDir w parent = some w1

theorem writeText_ok {d : Parser.Disk} {w w1 : World} {path : Str} (text : Str) (hdir : w.isDir path = false) (hprep : Prepared d w path w1)
    (hcan : d.canWrite w1 path = true) : writeText d w path text = (Parser.World.store w1 path text, .ok ()) := by
  unfold writeText
  unfold Prepared at hprep
  simp only at hprep ⊢
  rw [if_neg (by simp [fileIsDirectory, hdir])]
  have : (if fileIsDirectory w (getFilenamePath w (collapseFullPath w path)) = true then some w
      else d.makeDir w (getFilenamePath w (collapseFullPath w path))) = some w1 := by
    split at hprep
    · rename_i hp
      rw [if_pos (by simp [fileIsDirectory, hp.1, hp.2]), hprep]
    · rename_i hp
      rw [if_neg ?_]
      · exact hprep
      · intro hf
        apply hp
        simp only [fileIsDirectory, Bool.and_eq_true, bne_iff_ne, ne_eq] at hf
        exact ⟨hf.2, hf.1⟩
  rw [this]
  simp only [hcan, if_true]

/-- C54 on files: when the file can be written, `read_ply_file` after `write_ply_file` returns the landmarks. -/
theorem C54_files (hf : f.Lawful good rnd) (k : Consts ν) {m : List (Int × Landmark ν)} (ha : Ascending m)
    (hm : ∀ e ∈ m, e.2.loc.All good ∧ e.2.normal.All good ∧ Int64 e.1) (hlen : m.length < 4294967295) (hne : m ≠ [])
    {d : Parser.Disk} {w w1 : World} {path : Str} (hpath : path ≠ []) (hdir : w.isDir path = false) (hprep : Prepared d w path w1)
    (hcan : d.canWrite w1 path = true) :
    ∃ w', writePlyFile f d w (some m) path = (w', .ok ()) ∧
      readPlyFile f k w' path = .ok (m.map (fun e => (e.1, readBack rnd k e.2))) := by
  refine ⟨Parser.World.store w1 path (plyText f m), ?_, ?_⟩
  · show (if m.length = 0 then _ else _) = _
    rw [if_neg (by simpa using hne)]
    exact writeText_ok _ hdir hprep hcan
  · unfold readPlyFile Parser.World.store fileExists
    simp only [if_true, Bool.and_true, bne_eq_false_iff_eq, hpath, if_false]
    rw [C54_round_trip hf k ha hm hlen]

theorem writeText_throws (d : Parser.Disk) (w : World) (path text : Str) :
    ((writeText d w path text).2 = .error .fileWrite ↔ fileIsDirectory w path = true ∨
        (fileIsDirectory w (getFilenamePath w (collapseFullPath w path)) = false ∧ d.makeDir w (getFilenamePath w (collapseFullPath w path)) = none)) ∧
      ((writeText d w path text).2 ≠ .ok () → (writeText d w path text).1 = w ∧ (writeText d w path text).2 = .error .fileWrite) := by
  unfold writeText
  by_cases h1 : fileIsDirectory w path = true
  · simp [h1]
  · simp only [h1, if_false, Bool.false_eq_true, false_or]
    by_cases h2 : fileIsDirectory w (getFilenamePath w (collapseFullPath w path)) = true
    · simp [h2]
    · simp only [h2, Bool.false_eq_true, if_false]
      cases h3 : d.makeDir w (getFilenamePath w (collapseFullPath w path)) <;> simp

/-- C91: a writer of vital/io throws exactly when there is nothing to write, the path is a directory or the parent
    directory is missing and cannot be made; in these cases no file changes. -/
theorem C91_ply_throws (d : Parser.Disk) (w : World) (m : Option (List (Int × Landmark ν))) (path : Str) :
    ((writePlyFile f d w m path).2 = .error .fileWrite ↔
      (m = none ∨ m = some []) ∨ fileIsDirectory w path = true ∨
        (fileIsDirectory w (getFilenamePath w (collapseFullPath w path)) = false ∧ d.makeDir w (getFilenamePath w (collapseFullPath w path)) = none)) ∧
    ((writePlyFile f d w m path).2 ≠ .ok () → (writePlyFile f d w m path).1 = w ∧ (writePlyFile f d w m path).2 = .error .fileWrite) := by
  have key := writeText_throws d w path
  unfold writePlyFile
  cases m with
  | none => simp
  | some l =>
    cases l with
    | nil => simp
    | cons e l =>
      simp only [List.length_cons, Nat.add_one_ne_zero, if_false]
      refine ⟨?_, (key _).2⟩
      rw [(key _).1]
      simp

/-- C91: the reader throws exactly when the file does not exist or cannot be opened; whatever the text is, it does not throw. -/
theorem C91_ply_read (k : Consts ν) (w : World) (path : Str) :
    (readPlyFile f k w path = .error .fileNotFound ↔ fileExists w path = false) ∧
    (readPlyFile f k w path = .error .fileNotRead ↔ fileExists w path = true ∧ w.content path = none) ∧
    (∀ text, fileExists w path = true → w.content path = some text → readPlyFile f k w path = .ok (plyRead f k text)) := by
  unfold readPlyFile
  cases h1 : fileExists w path <;> cases h2 : w.content path <;> simp

def demoMap : List (Int × Landmark Int) :=
  [(-4, ⟨⟨1, 22, -333⟩, 9, ⟨0, 0, 1⟩, ⟨1, 2, 255⟩, 3⟩), (7, ⟨⟨10, 20, 30⟩, 1, ⟨0, 1, 0⟩, {}, 4294967295⟩)]

example : Ascending demoMap ∧ (∀ e ∈ demoMap, e.2.loc.All (fun n => -2147483648 ≤ n ∧ n ≤ 2147483647) ∧
      e.2.normal.All (fun n => -2147483648 ≤ n ∧ n ≤ 2147483647) ∧ Int64 e.1) ∧ demoMap.length < 4294967295 := by
  refine ⟨by simp [Ascending, demoMap], ?_, by decide⟩
  intro e he
  simp [demoMap] at he
  rcases he with rfl | rfl <;> simp [Vec3.All, Int64]

example : (plyRead intFmt ⟨0, 1⟩ (plyText intFmt demoMap)).map (fun e => (e.1, e.2.loc, e.2.color)) =
    [(-4, ⟨1, 22, -333⟩, ⟨1, 2, 255⟩), (7, ⟨10, 20, 30⟩, ⟨255, 255, 255⟩)] := by decide +kernel

end Vital.IO
