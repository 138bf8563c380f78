import Verif.Py.Tool
/-
  Proofs of C223 - C226.
-/
namespace Vital.Py.Tool
open Vital Vital.Config Vital.CApi

/-! ### Lines -/

theorem readLines_line {l : Str} (h : '\n' ∉ l) : ∀ (acc r : Str), readLines acc (l ++ '\n' :: r) = (acc ++ l) :: readLines [] r := by
  induction l with
  | nil => intro acc r; simp [readLines]
  | cons c l ih =>
    intro acc r
    simp only [List.mem_cons, not_or] at h
    rw [List.cons_append, readLines, if_neg (Ne.symm h.1), ih h.2]
    simp

theorem readLines_last {l : Str} (h : '\n' ∉ l) : ∀ (acc : Str), readLines acc l = if acc ++ l = [] then [] else [acc ++ l] := by
  induction l with
  | nil => intro acc; simp [readLines]
  | cons c l ih =>
    intro acc
    simp only [List.mem_cons, not_or] at h
    rw [readLines, if_neg (Ne.symm h.1), ih h.2]
    simp

theorem readLines_flat : ∀ (ls : List Str) (r : Str), (∀ l ∈ ls, '\n' ∉ l) → readLines [] (ls.flatMap (fun l => l ++ ['\n']) ++ r) = ls ++ readLines [] r
  | [], r, _ => rfl
  | l :: ls, r, h => by
    rw [List.flatMap_cons, List.append_assoc, List.append_assoc, List.singleton_append, readLines_line (h l (by simp)), readLines_flat ls r fun x hx => h x (by simp [hx])]
    rfl

theorem readLines_file {lines : List Str} {c : Str} (h : FileOf lines c) : readLines [] c = lines := by
  obtain ⟨h1, h2 | ⟨ls, x, rfl, hx, rfl⟩⟩ := h
  · subst h2
    have := readLines_flat lines [] h1
    simpa [readLines] using this
  · rw [readLines_flat ls x fun l hl => h1 l (by simp [hl]), readLines_last (h1 x (by simp))]
    simp [hx]

/-- Every text is the text of some lines. -/
theorem file_lines (c : Str) : FileOf (readLines [] c) c := by
  suffices ∀ (c acc : Str), '\n' ∉ acc → FileOf (readLines acc c) (acc ++ c) by simpa using this c [] (by simp)
  intro c
  induction c with
  | nil =>
    intro acc ha
    rw [readLines]
    split
    · rename_i h; subst h; exact ⟨by simp, .inl rfl⟩
    · rename_i h
      exact ⟨by simpa using ha, .inr ⟨[], acc, rfl, h, by simp⟩⟩
  | cons x c ih =>
    intro acc ha
    rw [readLines]
    split
    · rename_i hx
      subst hx
      have := ih [] (by simp)
      rw [List.nil_append] at this
      obtain ⟨h1, h2⟩ := this
      refine ⟨fun l hl => ?_, ?_⟩
      · simp only [List.mem_cons] at hl
        rcases hl with rfl | hl
        · exact ha
        · exact h1 l hl
      · rcases h2 with h2 | ⟨ls, y, e, hy, h2⟩
        · left
          rw [List.flatMap_cons, ← h2]
          simp
        · right
          refine ⟨acc :: ls, y, by rw [e]; rfl, hy, ?_⟩
          rw [List.flatMap_cons, List.append_assoc, ← h2]
          simp
    · rename_i hx
      have := ih (acc ++ [x]) (by simp [ha, Ne.symm hx])
      simpa using this

/-! ### C223: what is tracked and written -/

section
variable {Img TS : Type} {w : World Img TS}

theorem picture_some {p : Str} {im : Img} : picture w p = some im ↔ ∃ r, w.load p = some r ∧ w.convert r = some im := by
  unfold picture
  cases h : w.load p with
  | none => simp
  | some r => simp

theorem frames_plain (imgs : List Str) : ∀ (l : List Str) (i : Nat) (a : TS) (c : TS), imgs.drop i = l →
    (frames w imgs [] l.length i a = some c ↔ Tracked w i (l.map fun p => ⟨p, none⟩) a c)
  | [], i, a, c, _ => by
    simp only [List.length_nil, frames, List.map_nil]
    constructor
    · intro h; cases h; exact .done
    · intro h; cases h; rfl
  | p :: l, i, a, c, hd => by
    have hi : imgs[i]? = some p := by
      have := congrArg List.head? hd
      rw [List.head?_drop] at this
      exact this
    have hd' : imgs.drop (i + 1) = l := by
      rw [← List.drop_drop, hd]
      rfl
    simp only [List.length_cons, frames, List.map_cons]
    unfold frame
    rw [hi]
    simp only [if_true]
    constructor
    · intro h
      cases hp : picture w p with
      | none => rw [hp] at h; cases h
      | some im =>
        obtain ⟨r, h1, h2⟩ := picture_some.1 hp
        rw [hp] at h
        simp only at h
        cases ht : w.track a i im none with
        | none => rw [ht] at h; cases h
        | some b =>
          rw [ht] at h
          exact .plain h1 h2 ht ((frames_plain imgs l (i + 1) b c hd').1 h)
    · intro h
      cases h with
      | plain h1 h2 h3 h4 =>
        rw [picture_some.2 ⟨_, h1, h2⟩]
        simp only [h3]
        exact (frames_plain imgs l (i + 1) _ c hd').2 h4

theorem frames_masked (imgs masks : List Str) (hm : masks ≠ []) : ∀ (l : List (Str × Str)) (i : Nat) (a : TS) (c : TS), imgs.drop i = l.map (·.1) →
    masks.drop i = l.map (·.2) → (frames w imgs masks l.length i a = some c ↔ Tracked w i (l.map fun x => ⟨x.1, some x.2⟩) a c)
  | [], i, a, c, _, _ => by
    simp only [List.length_nil, frames, List.map_nil]
    constructor
    · intro h; cases h; exact .done
    · intro h; cases h; rfl
  | (p, q) :: l, i, a, c, hd, he => by
    have hi : imgs[i]? = some p := by
      have := congrArg List.head? hd
      rw [List.head?_drop] at this
      exact this
    have hj : masks[i]? = some q := by
      have := congrArg List.head? he
      rw [List.head?_drop] at this
      exact this
    have hd' : imgs.drop (i + 1) = l.map (·.1) := by rw [← List.drop_drop, hd]; rfl
    have he' : masks.drop (i + 1) = l.map (·.2) := by rw [← List.drop_drop, he]; rfl
    simp only [List.length_cons, frames, List.map_cons]
    unfold frame
    rw [hi, hj]
    simp only [if_neg hm]
    constructor
    · intro h
      cases hp : picture w p with
      | none => rw [hp] at h; cases h
      | some im =>
        obtain ⟨r, h1, h2⟩ := picture_some.1 hp
        rw [hp] at h
        simp only at h
        cases hq : picture w q with
        | none => rw [hq] at h; cases h
        | some mk =>
          obtain ⟨r', h3, h4⟩ := picture_some.1 hq
          rw [hq] at h
          simp only at h
          cases ht : w.track a i im (some mk) with
          | none => rw [ht] at h; cases h
          | some b =>
            rw [ht] at h
            exact .masked h1 h2 h3 h4 ht ((frames_masked imgs masks hm l (i + 1) b c hd' he').1 h)
    · intro h
      cases h with
      | masked h1 h2 h3 h4 h5 h6 =>
        rw [picture_some.2 ⟨_, h1, h2⟩]
        simp only [picture_some.2 ⟨_, h3, h4⟩, h5]
        exact (frames_masked imgs masks hm l (i + 1) _ c hd' he').2 h6

/-- The jobs that the two lists stand for. -/
def jobsOf (imgs masks : List Str) : List Job := if masks = [] then imgs.map fun p => ⟨p, none⟩ else (imgs.zip masks).map fun x => ⟨x.1, some x.2⟩

theorem frames_jobs (imgs masks : List Str) (h : masks = [] ∨ imgs.length = masks.length) (a c : TS) :
    frames w imgs masks imgs.length 0 a = some c ↔ Tracked w 0 (jobsOf imgs masks) a c := by
  unfold jobsOf
  by_cases hm : masks = []
  · rw [if_pos hm, hm]
    exact frames_plain imgs imgs 0 a c rfl
  · rw [if_neg hm]
    have hl := h.resolve_left hm
    have hz : (imgs.zip masks).length = imgs.length := by rw [List.length_zip]; omega
    have := frames_masked (w := w) imgs masks hm (imgs.zip masks) 0 a c (by simp [List.map_fst_zip (Nat.le_of_eq hl)]) (by simp [List.map_snd_zip (Nat.le_of_eq hl.symm)])
    rw [hz] at this
    exact this

/-- What the last part does. -/
theorem process_spec (imgs masks : List Str) (h : masks = [] ∨ imgs.length = masks.length) (out : Str) (s : FS) :
    ((process w imgs masks out s).2 = .none ↔ Writable w s out ∧ ∃ ts text, Tracked w 0 (jobsOf imgs masks) w.empty ts ∧ w.text ts = some text) ∧
    (∀ ts text, Writable w s out → Tracked w 0 (jobsOf imgs masks) w.empty ts → w.text ts = some text → (process w imgs masks out s).1.file out = some text) ∧
    (∀ q, q ≠ out → (process w imgs masks out s).1.file q = s.file q) ∧
    (Writable w s out → (process w imgs masks out s).2 ≠ .none → (process w imgs masks out s).1.file out = some []) ∧
    (¬ Writable w s out → (process w imgs masks out s).1.file = s.file) ∧ (process w imgs masks out s).2 ≠ .false := by
  have hj := frames_jobs (w := w) imgs masks h w.empty
  unfold process Writable
  by_cases h1 : s.dir (dirname out) = false ∧ w.canMkdir (dirname out) = false
  · rw [if_pos h1]
    simp [h1.1, h1.2]
  · rw [if_neg h1]
    have h1' : s.dir (dirname out) = true ∨ w.canMkdir (dirname out) = true := by
      cases hd : s.dir (dirname out) <;> cases hk : w.canMkdir (dirname out) <;> simp_all
    have hs : (if s.dir (dirname out) = false then s.mkdir (dirname out) else s).file = s.file := by split <;> rfl
    dsimp only
    generalize (if s.dir (dirname out) = false then s.mkdir (dirname out) else s) = s1 at hs
    by_cases h2 : w.canOpen out = false
    · rw [if_pos h2]
      simp [h2, hs]
    · rw [if_neg h2]
      have h2' : w.canOpen out = true := by simpa using h2
      cases hf : frames w imgs masks imgs.length 0 w.empty with
      | none =>
        have hn : ∀ ts, ¬ Tracked w 0 (jobsOf imgs masks) w.empty ts := fun ts ht => by
          rw [← hj, hf] at ht; cases ht
        refine ⟨by simp [hn], fun ts text _ ht => absurd ht (hn ts), fun q hq => by simp [FS.write, hq, hs], fun _ _ => by simp [FS.write], fun hn => absurd ⟨h1', h2'⟩ hn, by simp⟩
      | some ts =>
        have ht := (hj ts).1 hf
        have hu : ∀ ts', Tracked w 0 (jobsOf imgs masks) w.empty ts' → ts' = ts := fun ts' h' => by
          rw [← hj, hf] at h'; exact (Option.some.inj h').symm
        simp only
        cases hx : w.text ts with
        | none =>
          refine ⟨?_, fun ts' text _ ht' hx' => ?_, fun q hq => by simp [FS.write, hq, hs], fun _ _ => by simp [FS.write], fun hn => absurd ⟨h1', h2'⟩ hn, by simp⟩
          · constructor
            · intro h; cases h
            · rintro ⟨_, ts', text, h3, h4⟩
              rw [hu ts' h3, hx] at h4; cases h4
          · rw [hu ts' ht', hx] at hx'; cases hx'
        | some c =>
          refine ⟨?_, fun ts' text _ ht' hx' => ?_, fun q hq => by simp [FS.write, hq, hs], fun _ hn => absurd rfl hn, fun hn => absurd ⟨h1', h2'⟩ hn, by simp⟩
          · exact ⟨fun _ => ⟨⟨h1', h2'⟩, ts, c, ht, hx⟩, fun _ => rfl⟩
          · rw [hu ts' ht', hx] at hx'
            cases hx'
            simp [FS.write]

theorem success_iff (t : Tool) (s : FS) (imgs masks : List Str) {p c : Str} (hp : t.imageList = some p) (hc : s.file p = some c)
    (hi : imgs = (readLines [] c).map trim)
    (hm : orEmpty t.maskList = [] ∧ masks = [] ∨ orEmpty t.maskList ≠ [] ∧ ∃ d, s.file (orEmpty t.maskList) = some d ∧ masks = (readLines [] d).map trim ∧ imgs.length = masks.length)
    (text : Str) : Success w t s text ↔ ∃ ts, Tracked w 0 (jobsOf imgs masks) w.empty ts ∧ w.text ts = some text := by
  constructor
  · rintro ⟨jobs, ts, hj, h2, h3⟩
    refine ⟨ts, ?_, h3⟩
    cases hj with
    | @plain lines p' c' h4 h5 h6 h7 =>
      rw [hp] at h4; cases h4
      rw [hc] at h5; cases h5
      have e0 : orEmpty t.maskList = [] := by rcases h7 with h | h <;> rw [h] <;> rfl
      rcases hm with ⟨_, hm⟩ | ⟨hm, _⟩
      · subst hm
        unfold jobsOf
        rw [if_pos rfl, hi, readLines_file h6, List.map_map]
        exact h2
      · exact absurd e0 hm
    | @masked pairs p' q c' d' h4 h5 h6 h7 h8 h9 h10 =>
      rw [hp] at h4; cases h4
      rw [hc] at h5; cases h5
      have e0 : orEmpty t.maskList = q := by rw [h7]; rfl
      rcases hm with ⟨hm, _⟩ | ⟨_, d, hd, hm, hl⟩
      · rw [e0] at hm; exact absurd hm h8
      · rw [e0, h9] at hd
        cases hd
        rw [readLines_file h6] at hi
        rw [readLines_file h10] at hm
        have hz : jobsOf imgs masks = pairs.map fun x => ⟨trim x.1, some (trim x.2)⟩ := by
          unfold jobsOf
          rw [hi, hm]
          cases pairs with
          | nil => rfl
          | cons x pairs =>
            rw [if_neg (by simp)]
            simp only [List.map_map]
            rw [List.zip_map', List.map_map]
            rfl
        rw [hz]
        exact h2
  · rintro ⟨ts, h2, h3⟩
    refine ⟨jobsOf imgs masks, ts, ?_, h2, h3⟩
    rcases hm with ⟨h4, hm⟩ | ⟨h4, d, hd, hm, hl⟩
    · subst hm
      unfold jobsOf
      rw [if_pos rfl, hi, List.map_map]
      refine .plain hp hc (file_lines c) ?_
      cases ht : t.maskList with
      | none => exact .inl rfl
      | some q => rw [ht] at h4; exact .inr (congrArg some h4)
    · obtain ⟨q, hq⟩ : ∃ q, t.maskList = some q := by
        cases ht : t.maskList with
        | none => rw [ht] at h4; exact absurd rfl h4
        | some q => exact ⟨q, rfl⟩
      have e0 : orEmpty t.maskList = q := by rw [hq]; rfl
      rw [e0] at h4 hd
      have hlen : (readLines [] c).length = (readLines [] d).length := by rw [hi, hm] at hl; simpa using hl
      have f1 : ((readLines [] c).zip (readLines [] d)).map (·.1) = readLines [] c := by
        have := List.map_fst_zip (Nat.le_of_eq hlen)
        simpa using this
      have f2 : ((readLines [] c).zip (readLines [] d)).map (·.2) = readLines [] d := by
        have := List.map_snd_zip (Nat.le_of_eq hlen.symm)
        simpa using this
      by_cases hn : masks = []
      · have hni : readLines [] c = [] := by
          rw [hn] at hl
          rw [hi] at hl
          simpa using hl
        have hnd : readLines [] d = [] := by rw [hn] at hm; simpa using hm.symm
        have := Jobs.masked (t := t) (s := s) (pairs := []) hp hc (by simpa [hni] using file_lines c) hq h4 hd (by simpa [hnd] using file_lines d)
        unfold jobsOf
        rw [if_pos hn, hi, hni]
        exact this
      · have := Jobs.masked (t := t) (s := s) (pairs := (readLines [] c).zip (readLines [] d)) hp hc (by rw [f1]; exact file_lines c) hq h4 hd (by rw [f2]; exact file_lines d)
        unfold jobsOf
        rw [if_neg hn, hi, hm, List.zip_map, List.map_map]
        exact this

/-- C223: after a valid configuration the method does not return False or raise exactly if the output file can be made and all frames of the
    lists can be tracked in their order, the i-th image with the i-th mask and the number i; the output file then has the text of the last
    track set, and no other file is changed in any case. -/
theorem C223_tracks (t : Tool) (s : FS) (hv : validate true t s = true) :
    ((trackImages w t s).2 = .none ↔ Writable w s (orEmpty t.output) ∧ ∃ text, Success w t s text) ∧
    (∀ text, Writable w s (orEmpty t.output) → Success w t s text → (trackImages w t s).1.file (orEmpty t.output) = some text) ∧
    ∀ q, q ≠ orEmpty t.output → (trackImages w t s).1.file q = s.file q := by
  unfold validate at hv
  split at hv
  · cases hv
  rename_i v1
  split at hv
  · cases hv
  rename_i v2
  split at hv
  · cases hv
  split at hv
  · cases hv
  rename_i v4
  obtain ⟨p, hp⟩ : ∃ p, t.imageList = some p := by
    cases ht : t.imageList with
    | none => rw [ht] at v1; exact absurd rfl v1
    | some p => exact ⟨p, rfl⟩
  have ep : orEmpty t.imageList = p := by rw [hp]; rfl
  rw [ep] at v2
  obtain ⟨c, hc⟩ : ∃ c, s.file p = some c := by
    cases hf : s.file p with
    | none => rw [hf] at v2; exact absurd rfl v2
    | some c => exact ⟨c, rfl⟩
  unfold trackImages
  rw [ep, hc]
  simp only
  by_cases hm : orEmpty t.maskList = []
  · rw [if_pos hm]
    obtain ⟨h1, h2, h3, _⟩ := process_spec (w := w) ((readLines [] c).map trim) [] (.inl rfl) (orEmpty t.output) s
    have hs := success_iff (w := w) t s _ [] hp hc rfl (.inl ⟨hm, rfl⟩)
    refine ⟨?_, fun text hw ht => ?_, h3⟩
    · rw [h1]
      simp only [hs]
      exact ⟨fun ⟨a, ts, x, b⟩ => ⟨a, x, ts, b⟩, fun ⟨a, x, ts, b⟩ => ⟨a, ts, x, b⟩⟩
    · obtain ⟨ts, a, b⟩ := (hs text).1 ht
      exact h2 ts text hw a b
  · rw [if_neg hm]
    obtain ⟨d, hd⟩ : ∃ d, s.file (orEmpty t.maskList) = some d := by
      cases hf : s.file (orEmpty t.maskList) with
      | none => rw [hf] at v4; exact absurd ⟨hm, rfl⟩ v4
      | some d => exact ⟨d, rfl⟩
    rw [hd]
    simp only
    by_cases hl : ((readLines [] c).map trim).length ≠ ((readLines [] d).map trim).length
    · rw [if_pos hl]
      have hn : ∀ text, ¬ Success w t s text := by
        rintro text ⟨jobs, ts, hj, _⟩
        cases hj with
        | plain h4 h5 h6 h7 => rcases h7 with h | h <;> rw [h] at hm <;> exact hm rfl
        | masked h4 h5 h6 h7 h8 h9 h10 =>
          rw [hp] at h4; cases h4
          rw [hc] at h5; cases h5
          rw [h7] at hd
          have : s.file _ = some d := hd
          simp only [orEmpty, Option.getD_some] at this
          rw [h9] at this; cases this
          rw [readLines_file h6, readLines_file h10] at hl
          simp at hl
      refine ⟨⟨(fun h => by cases h), fun ⟨_, x, hx⟩ => absurd hx (hn x)⟩, fun text _ h => absurd h (hn text), fun _ _ => rfl⟩
    · rw [if_neg hl]
      have hl' : ((readLines [] c).map trim).length = ((readLines [] d).map trim).length := by
        rcases Nat.decEq ((readLines [] c).map trim).length ((readLines [] d).map trim).length with h | h
        · exact absurd h hl
        · exact h
      obtain ⟨h1, h2, h3, _⟩ := process_spec (w := w) ((readLines [] c).map trim) ((readLines [] d).map trim) (.inr hl') (orEmpty t.output) s
      have hs := success_iff (w := w) t s _ _ hp hc rfl (.inr ⟨hm, d, hd, rfl, hl'⟩)
      refine ⟨?_, fun text hw ht => ?_, h3⟩
      · rw [h1]
        simp only [hs]
        exact ⟨fun ⟨a, ts, x, b⟩ => ⟨a, x, ts, b⟩, fun ⟨a, x, ts, b⟩ => ⟨a, ts, x, b⟩⟩
      · obtain ⟨ts, a, b⟩ := (hs text).1 ht
        exact h2 ts text hw a b

/-! ### C224: the exit code -/

/-- Without the option -o the exit code is never 0. -/
theorem C224_never (e : Env) (algos : Bool) (config : Option (Option (Heap × Nat))) (s : FS) : (cliMain w e algos config none s).2 ≠ 0 := by
  have key : ∀ t : Tool, (if validate algos t s = false then (s, 1) else match trackImages w t s with
      | (s', .raised) => (s', 1)
      | (s', .none) => (s', 2)
      | (s', .false) => (s', 2)).2 ≠ 0 := by
    intro t
    split
    · simp
    · cases trackImages w t s with
      | mk s' r => cases r <;> simp
  unfold cliMain
  split
  · simp
  · exact key _

/-- What holds of C224: the exit code is 2 both when all tracks are written and when the lists are not congruent, and 1 when the configuration
    is not valid or an exception is raised.  Missing: the distinction of success from failure. -/
theorem C224_partial (e : Env) (h : Heap) (b : Nat) (s : FS) (t : Tool) (ht : t = setConfig e Tool.init h b) :
    (validate true t s = false → cliMain w e true (some (some (h, b))) none s = (s, 1)) ∧
    (validate true t s = true → ((cliMain w e true (some (some (h, b))) none s).2 = 1 ↔ (trackImages w t s).2 = .raised) ∧
      ((cliMain w e true (some (some (h, b))) none s).2 = 2 ↔ (trackImages w t s).2 = .none ∨ (trackImages w t s).2 = .false)) := by
  subst ht
  unfold cliMain
  dsimp only
  constructor
  · intro hv
    rw [if_pos hv]
  · intro hv
    rw [if_neg (by simp [hv])]
    cases hr : trackImages w (setConfig e Tool.init h b) s with
    | mk s' r => cases r <;> simp
end

/-! ### C225: the output file of a run that fails -/

/-- A world with one frame that cannot be tracked. -/
def failing : World Unit Unit := ⟨fun _ => some (), fun _ => some (), fun _ _ _ _ => none, (), fun _ => some [], fun _ => true, fun _ => true⟩
def exFS : FS := ⟨fun p => if p = c!"/l" then some (c!"a.png\n") else if p = c!"/d/out" then some (c!"old tracks") else none, fun p => decide (p = c!"/d")⟩
def exTool : Tool := ⟨some (c!"/l"), none, false, false, some (c!"/d/out")⟩

section
variable {Img TS : Type} {w : World Img TS}

/-- What holds of C225: the output file is as it was when the method returns False, when a list cannot be read or when the output cannot be made.
    Missing: failures in loading, converting, tracking and writing. -/
theorem C225_partial (t : Tool) (s : FS) (h : (trackImages w t s).2 = .false ∨ s.file (orEmpty t.imageList) = none ∨
    (orEmpty t.maskList ≠ [] ∧ s.file (orEmpty t.maskList) = none) ∨ ¬ Writable w s (orEmpty t.output)) : (trackImages w t s).1.file = s.file := by
  unfold trackImages at h ⊢
  cases hc : s.file (orEmpty t.imageList) with
  | none => rfl
  | some c =>
    rw [hc] at h
    simp only at h ⊢
    by_cases hm : orEmpty t.maskList = []
    · rw [if_pos hm] at h ⊢
      obtain ⟨_, _, _, _, h5, h6⟩ := process_spec (w := w) ((readLines [] c).map trim) [] (.inl rfl) (orEmpty t.output) s
      rcases h with h | h | h | h
      · exact absurd h h6
      · cases h
      · exact absurd hm h.1
      · exact h5 h
    · rw [if_neg hm] at h ⊢
      cases hd : s.file (orEmpty t.maskList) with
      | none => rfl
      | some d =>
        rw [hd] at h
        simp only at h ⊢
        by_cases hl : ((readLines [] c).map trim).length = ((readLines [] d).map trim).length
        · rw [if_neg (by simpa using hl)] at h ⊢
          obtain ⟨_, _, _, _, h5, h6⟩ := process_spec (w := w) ((readLines [] c).map trim) ((readLines [] d).map trim) (.inr hl) (orEmpty t.output) s
          rcases h with h | h | h | h
          · exact absurd h h6
          · cases h
          · cases h.2
          · exact h5 h
        · rw [if_pos hl]

/-- A run that fails after that leaves an empty output file. -/
theorem C225_emptied (t : Tool) (s : FS) (hv : validate true t s = true) (hw : Writable w s (orEmpty t.output)) (hr : (trackImages w t s).2 = .raised) :
    (trackImages w t s).1.file (orEmpty t.output) = some [] := by
  unfold validate at hv
  split at hv
  · cases hv
  split at hv
  · cases hv
  rename_i v2
  split at hv
  · cases hv
  split at hv
  · cases hv
  rename_i v4
  unfold trackImages at hr ⊢
  cases hc : s.file (orEmpty t.imageList) with
  | none => rw [hc] at v2; exact absurd rfl v2
  | some c =>
    rw [hc] at hr
    simp only at hr ⊢
    by_cases hm : orEmpty t.maskList = []
    · rw [if_pos hm] at hr ⊢
      exact (process_spec (w := w) ((readLines [] c).map trim) [] (.inl rfl) (orEmpty t.output) s).2.2.2.1 hw (by rw [hr]; simp)
    · rw [if_neg hm] at hr ⊢
      cases hd : s.file (orEmpty t.maskList) with
      | none => rw [hd] at v4; exact absurd ⟨hm, rfl⟩ v4
      | some d =>
        rw [hd] at hr
        simp only at hr ⊢
        by_cases hl : ((readLines [] c).map trim).length = ((readLines [] d).map trim).length
        · rw [if_neg (by simpa using hl)] at hr ⊢
          exact (process_spec (w := w) ((readLines [] c).map trim) ((readLines [] d).map trim) (.inr hl) (orEmpty t.output) s).2.2.2.1 hw (by rw [hr]; simp)
        · rw [if_pos hl] at hr; cases hr
end

/-- C225 is false of the code: every run that fails while frames are processed has emptied the output file. -/
theorem C225_refuted : ¬ C225_statement ∧ ∀ (Img TS : Type) (w : World Img TS) (t : Tool) (s : FS), validate true t s = true →
    Writable w s (orEmpty t.output) → (trackImages w t s).2 = .raised → (trackImages w t s).1.file (orEmpty t.output) = some [] := by
  refine ⟨fun h => ?_, fun Img TS w t s h1 h2 h3 => C225_emptied t s h1 h2 h3⟩
  have h1 : (trackImages failing exTool exFS).2 = .raised := by decide +kernel
  have h2 := h Unit Unit failing exTool exFS (by rw [h1]; decide)
  have h3 := C225_emptied (w := failing) exTool exFS (by decide +kernel) ⟨.inl (by decide +kernel), rfl⟩ h1
  rw [h3] at h2
  exact absurd h2 (by decide +kernel)

/-- A world where tracking counts the frames. -/
def counting : World Str Nat := ⟨fun p => if p = c!"bad" then none else some p, some, fun n i _ m => if i = n then some (n + 1 + (if m = none then 0 else 100)) else none, 0,
  fun n => if n = 0 then none else some (if n = 1 then c!"1" else c!"many"), fun _ => true, fun _ => true⟩

theorem ex_success : Success counting exTool exFS (c!"1") :=
  ⟨_, 1, .plain (lines := [c!"a.png"]) rfl rfl ⟨by decide, .inl rfl⟩ (.inl rfl), .plain (r := c!"a.png") (im := c!"a.png") (b := 1) rfl rfl rfl .done, rfl⟩

/-- A configuration with the two paths. -/
def exHeap : Heap :=
  [{ parent := none, name := [], store := [(c!"image_list_file", c!"/l"), (c!"output_tracks_file", c!"/d/out")], descr := [], ro := [], defs := [] }]
def exEnv : Env := ⟨c!"/", id⟩

/-- C224 is false of the code: without the option -o the exit code is never 0. -/
theorem C224_refuted : ¬ C224_statement ∧ (∀ (Img TS : Type) (w : World Img TS) (e : Env) (algos : Bool) (config : Option (Option (Heap × Nat))) (s : FS),
    (cliMain w e algos config none s).2 ≠ 0) := by
  refine ⟨fun h => ?_, fun Img TS w e algos config s => C224_never e algos config s⟩
  have ht : setConfig exEnv Tool.init exHeap 0 = exTool := by decide +kernel
  have := (h Str Nat counting exEnv exHeap 0 exFS).2 (by
    rw [ht]
    exact ⟨by decide +kernel, ⟨.inl (by decide +kernel), rfl⟩, _, ex_success⟩)
  exact C224_never _ _ _ _ this

/-! ### C227: masks -/

/-- The two settings about masks have no effect on tracking. -/
theorem C227_ignored {Img TS : Type} (w : World Img TS) (t : Tool) (s : FS) (a b : Bool) :
    trackImages w { t with invert := a, multi := b } s = trackImages w t s := rfl

theorem frame_invert {Img TS : Type} (w : World Img TS) (inv : Img → Img) (imgs : List Str) (i : Nat) (ts : TS) :
    frame (w.invertMasks inv) imgs [] i ts = frame w imgs [] i ts := rfl

theorem frames_invert {Img TS : Type} (w : World Img TS) (inv : Img → Img) (imgs : List Str) :
    ∀ (n i : Nat) (ts : TS), frames (w.invertMasks inv) imgs [] n i ts = frames w imgs [] n i ts
  | 0, _, _ => rfl
  | n + 1, i, ts => by
    unfold frames
    rw [frame_invert]
    cases frame w imgs [] i ts with
    | none => rfl
    | some x => exact frames_invert w inv imgs n (i + 1) x

/-- What holds of C227: tools without a list of masks.  Missing: tools with one, whose masks are used as they are. -/
theorem C227_partial {Img TS : Type} (w : World Img TS) (inv : Img → Img) (t : Tool) (s : FS) (h : t.maskList = none ∨ t.maskList = some []) :
    trackImages w t s = trackImages (w.invertMasks inv) { t with invert := false } s := by
  have hm : orEmpty t.maskList = [] := by rcases h with h | h <;> rw [h] <;> rfl
  unfold trackImages
  simp only [hm, if_true]
  cases s.file (orEmpty t.imageList) with
  | none => rfl
  | some c =>
    simp only
    unfold process
    rw [frames_invert]
    rfl

/-- A world where the track set is the text of the masks. -/
def showing : World Str Str := ⟨some, some, fun ts _ _ m => some (ts ++ m.getD []), [], some, fun _ => true, fun _ => true⟩
def maskTool : Tool := ⟨some (c!"/l"), some (c!"/l"), true, false, some (c!"/d/out")⟩

/-- C227 is false of the code: the two settings about masks are never looked at. -/
theorem C227_refuted : ¬ C227_statement ∧ ∀ (Img TS : Type) (w : World Img TS) (t : Tool) (s : FS) (a b : Bool),
    trackImages w { t with invert := a, multi := b } s = trackImages w t s := by
  refine ⟨fun h => ?_, fun Img TS w t s a b => C227_ignored w t s a b⟩
  have := congrArg (fun r => r.1.file (c!"/d/out")) (h Str Str showing (fun _ => []) maskTool exFS rfl)
  exact absurd this (by decide +kernel)

/-- A concrete case for C227. -/
example : trackImages counting exTool exFS = trackImages (counting.invertMasks id) { exTool with invert := false } exFS :=
  C227_partial counting id exTool exFS (.inl rfl)

/-- A concrete case for C223. -/
example : (trackImages counting exTool exFS).2 = .none ∧ (trackImages counting exTool exFS).1.file (c!"/d/out") = some (c!"1") := by
  have hs := ex_success
  have hw : Writable counting exFS (orEmpty exTool.output) := ⟨.inl (by decide +kernel), rfl⟩
  obtain ⟨h1, h2, _⟩ := C223_tracks (w := counting) exTool exFS (by decide +kernel)
  exact ⟨h1.2 ⟨hw, _, hs⟩, h2 _ hw hs⟩

end Vital.Py.Tool
