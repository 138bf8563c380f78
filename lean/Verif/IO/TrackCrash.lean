import Verif.IO.TrackFile
/-
  Interrupted writing of a track file; property C286.

  The text reaches the file in pieces of any size; an interruption leaves a first part of it.  The code never asks the stream whether it failed.
-/
namespace Vital.IO.TrackCrash
open Vital Vital.Stream Vital.Sys Vital.Track Vital.IO

variable {ν D : Type} {f : NumFmt ν} {good : ν → Prop} {rnd : ν → ν}

/-- The file system when `n` bytes of the text have reached the device, and what the caller gets if that is all the device takes. -/
-- models: vital/io/track_set_io.cxx:108-153 (write_track_file; 142-152: no check of `ofile`)
def writeUntil (n : Nat) (f : NumFmt ν) (d : Parser.Disk) (w : World) (ts : Option (List (FTrack ν D))) (path : Str) : World × Except Exc Unit :=
  match ts with
  | none => (w, .error .fileWrite)
  | some l => if l.length = 0 then (w, .error .fileWrite) else writeText d w path ((trackText f l).take n)

theorem writeUntil_all (f : NumFmt ν) (d : Parser.Disk) (w : World) (l : List (FTrack ν D)) (path : Str) {n : Nat} (hn : (trackText f l).length ≤ n) :
    writeUntil n f d w (some l) path = writeTrackFile f d w (some l) path := by
  unfold writeUntil writeTrackFile
  simp only [List.take_of_length_le hn]

/-! ### Specification -/

/-- The first `k` observations of the tracks. -/
def firstStates : Nat → List (FTrack ν D) → List (FTrack ν D)
  | _, [] => []
  | k, t :: ts => if k = 0 then [] else if k < t.history.length then [⟨t.history.take k, t.id⟩] else t :: firstStates (k - t.history.length) ts

/-- The same tracks, but perhaps one more observation at the end of a track, or one more track. -/
inductive OneMore : List (FTrack ν Unit) → List (FTrack ν Unit) → Prop where
  | same (R) : OneMore R R
  | new (R s i) : OneMore R (R ++ [⟨[s], i⟩])
  | longer (A t B s) : OneMore (A ++ t :: B) (A ++ ⟨t.history ++ [s], t.id⟩ :: B)

/-- Full property C286: the file of an interrupted write cannot be read, or gives a first part of the observations. -/
def C286_statement (f : NumFmt ν) (good : ν → Prop) (rnd : ν → ν) : Prop := ∀ (ts : List (FTrack ν Unit)) (n : Nat) (junkI : Nat → Int) (junk : Nat → ν),
  (ts.map (·.id)).Nodup → (∀ t ∈ ts, t.history ≠ [] ∧ Ordered t) → (∀ t ∈ ts, GoodTrack good t) →
  ∀ R, trackRead f junkI junk ((trackText f ts).take n) = .ok R → ∃ k, R = (firstStates k ts).map (readBackTrack rnd)

/-! ### Proofs -/

theorem take_unlines : ∀ (ls : List Str) (n : Nat), (∀ l ∈ ls, '\n' ∉ l) → ∃ i p, ((ls.map (· ++ c!"\n")).flatten).take n = ((ls.take i).map (· ++ c!"\n")).flatten ++ p ∧
    '\n' ∉ p ∧ i ≤ ls.length := by
  intro ls
  induction ls with
  | nil => intro n _; exact ⟨0, [], by simp, by simp, Nat.le_refl _⟩
  | cons l ls ih =>
    intro n h
    by_cases hn : n ≤ l.length
    · refine ⟨0, l.take n, ?_, fun hh => h l (by simp) (List.mem_of_mem_take hh), by simp⟩
      rw [List.map_cons, List.flatten_cons, List.append_assoc, List.take_append_of_le_length hn]
      simp
    · obtain ⟨i, p, h1, h2, h3⟩ := ih (n - (l.length + 1)) (fun x hx => h x (by simp [hx]))
      refine ⟨i + 1, p, ?_, h2, by simp; omega⟩
      rw [List.map_cons, List.flatten_cons, List.take_append, List.take_of_length_le (by simp; omega)]
      simp only [List.length_append, List.length_singleton]
      rw [h1, List.take_succ_cons, List.map_cons, List.flatten_cons]
      simp only [List.append_assoc]

theorem count_unlines : ∀ (ls : List Str), (∀ l ∈ ls, '\n' ∉ l) → ((ls.map (· ++ c!"\n")).flatten).count '\n' = ls.length := by
  intro ls
  induction ls with
  | nil => intro _; rfl
  | cons l ls ih =>
    intro h
    rw [List.map_cons, List.flatten_cons, List.count_append, ih (fun x hx => h x (by simp [hx])), List.count_append, List.count_eq_zero.2 (h l (by simp))]
    simp
    omega

theorem linesAre_take {ls : List Str} {es : List (Entry ν)} (h : LinesAre f ls es) : ∀ i, LinesAre f (ls.take i) (es.take i) := by
  induction h with
  | nil => intro i; simp; exact .nil
  | cons h _ ih =>
    intro i
    cases i with
    | zero => exact .nil
    | succ i => exact .cons h (ih i)

theorem trackLoop_append {ls : List Str} {es : List (Entry ν)} (h : LinesAre f ls es) (junkI : Nat → Int) (junk : Nat → ν) (tl : List Str) :
    ∀ ts, trackLoop f junkI junk (ls ++ tl) ts = trackLoop f junkI junk tl (es.foldl (fun ts e => putState ts e.tid e.frame e.feat) ts) := by
  induction h with
  | nil => intro ts; rfl
  | cons h _ ih =>
    intro ts
    rw [List.cons_append]
    conv => lhs; unfold trackLoop
    rw [readTrackLine_ok h]
    exact ih _

theorem oneMore_put (i fr : Int) (x : Feature ν) : ∀ R : List (FTrack ν Unit), OneMore R (putState R i fr x) := by
  have ap : ∀ t : FTrack ν Unit, (appendState t ⟨fr, x, ()⟩).1 = t ∨ (appendState t ⟨fr, x, ()⟩).1 = ⟨t.history ++ [⟨fr, x, ()⟩], t.id⟩ := by
    intro t
    unfold appendState
    split
    · exact .inl rfl
    · exact .inr rfl
  intro R
  induction R with
  | nil =>
    unfold putState
    rcases ap (setId mkEmpty i) with h | h
    · have : (appendState (setId (mkEmpty : FTrack ν Unit) i) ⟨fr, x, ()⟩).1 = ⟨[⟨fr, x, ()⟩], i⟩ := by
        simp [appendState, mkEmpty, setId]
      rw [this]
      exact .new [] _ _
    · rw [h]
      exact .new [] _ _
  | cons t R ih =>
    unfold putState
    split
    · rcases ap t with h | h
      · rw [h]; exact .same _
      · rw [h]; exact .longer [] t R _
    · have cons : ∀ {P Q : List (FTrack ν Unit)}, OneMore P Q → OneMore (t :: P) (t :: Q) := by
        intro P Q h
        cases h with
        | same => exact .same _
        | new _ s i => exact .new (t :: P) s i
        | longer A u B s => exact .longer (t :: A) u B s
      exact cons ih

theorem entries_first (rnd : ν → ν) : ∀ (ts : List (FTrack ν D)) (k : Nat), (∀ t ∈ ts, t.history ≠ []) → entriesOf rnd (firstStates k ts) = (entriesOf rnd ts).take k := by
  intro ts
  induction ts with
  | nil => intro k _; simp [firstStates, entriesOf]
  | cons t ts ih =>
    intro k h
    have e : ∀ (u : FTrack ν D) (us), entriesOf rnd (u :: us) = u.history.map (fun s => (⟨u.id, s.frame, s.feat.map rnd⟩ : Entry ν)) ++ entriesOf rnd us := by
      intro u us; unfold entriesOf; rw [List.flatMap_cons]
    unfold firstStates
    split
    · rename_i hk; subst hk; simp [entriesOf]
    · split
      · rename_i hk hl
        rw [e, e, List.take_append_of_le_length (by simp; omega), ← List.map_take]
        simp [entriesOf]
      · rename_i hk hl
        have hlen : (t.history.map (fun s => (⟨t.id, s.frame, s.feat.map rnd⟩ : Entry ν))).length ≤ k := by rw [List.length_map]; omega
        rw [e, e, ih _ (fun u hu => h u (by simp [hu])), List.take_append, List.take_of_length_le hlen, List.length_map]

theorem first_ok : ∀ (ts : List (FTrack ν D)) (k : Nat), (∀ t ∈ ts, t.history ≠ [] ∧ Ordered t) → (∀ t ∈ firstStates k ts, t.history ≠ [] ∧ Ordered t) := by
  intro ts
  induction ts with
  | nil => intro k _ t ht; simp [firstStates] at ht
  | cons t ts ih =>
    intro k h u hu
    unfold firstStates at hu
    split at hu
    · cases hu
    · split at hu
      · rename_i hk hl
        rw [List.mem_singleton] at hu
        subst hu
        obtain ⟨h1, h2⟩ := h t (by simp)
        refine ⟨?_, ?_⟩
        · simp [hk, h1]
        · unfold Ordered at h2 ⊢
          exact h2.sublist (List.take_sublist _ _)
      · rcases List.mem_cons.1 hu with rfl | hu
        · exact h u (by simp)
        · exact ih _ (fun x hx => h x (by simp [hx])) u hu

theorem first_ids : ∀ (ts : List (FTrack ν D)) (k : Nat), (firstStates k ts).map (·.id) <+: ts.map (·.id) := by
  intro ts
  induction ts with
  | nil => intro k; simp [firstStates]
  | cons t ts ih =>
    intro k
    unfold firstStates
    split
    · exact List.nil_prefix
    · split
      · exact ⟨ts.map (·.id), rfl⟩
      · rw [List.map_cons, List.map_cons, List.cons_prefix_cons]
        exact ⟨rfl, ih _⟩

/-- What reading a first part of the text gives: the observations of the complete lines and what the rest of a line gives. -/
theorem read_cut (hf : f.Lawful good rnd) {ts : List (FTrack ν D)} (hid : (ts.map (·.id)).Nodup) (hh : ∀ t ∈ ts, t.history ≠ [] ∧ Ordered t)
    (hg : ∀ t ∈ ts, GoodTrack good t) (n : Nat) (junkI : Nat → Int) (junk : Nat → ν) :
    ∃ p, '\n' ∉ p ∧ (p = [] ↔ (trackText f ts).take n = [] ∨ ((trackText f ts).take n).getLast? = some '\n') ∧
      trackRead f junkI junk ((trackText f ts).take n) =
        trackLoop f junkI junk (if p = [] then [] else [p]) ((firstStates (((trackText f ts).take n).count '\n') ts).map (readBackTrack rnd)) := by
  have hnl : ∀ l ∈ trackLines f ts, '\n' ∉ l := by
    intro l hl
    unfold trackLines at hl
    obtain ⟨t, _, hl⟩ := List.mem_flatMap.1 hl
    obtain ⟨s, _, rfl⟩ := List.mem_map.1 hl
    exact trackLine_no_newline hf _ s
  obtain ⟨i, p, h1, h2, h3⟩ := take_unlines (trackLines f ts) n hnl
  have hnl' : ∀ l ∈ (trackLines f ts).take i, '\n' ∉ l := fun l hl => hnl l (List.mem_of_mem_take hl)
  refine ⟨p, h2, ?_, ?_⟩
  · rw [show (trackText f ts).take n = _ from h1]
    constructor
    · rintro rfl
      cases hlast : (trackLines f ts).take i with
      | nil => exact .inl (by simp)
      | cons a as =>
        refine .inr ?_
        rw [List.append_nil, List.getLast?_flatten]
        have : ∀ (l : List Str) (x : Str), l ≠ [] → (l.map (· ++ c!"\n")).reverse.findSome? List.getLast? = some '\n' := by
          intro l _ hl
          obtain ⟨l', b, rfl⟩ : ∃ l' b, l = l' ++ [b] := ⟨l.dropLast, l.getLast hl, (List.dropLast_concat_getLast hl).symm⟩
          simp
        exact this _ [] (by simp)
    · intro hp
      by_cases hpn : p = []
      · exact hpn
      · exfalso
        rcases hp with hp | hp
        · exact hpn (List.append_eq_nil_iff.1 hp).2
        · rw [List.getLast?_append] at hp
          cases hl : p.getLast? with
          | none => exact hpn (List.getLast?_eq_none_iff.1 hl)
          | some c =>
            rw [hl] at hp
            simp only [Option.some_or, Option.some.injEq] at hp
            subst hp
            exact h2 (List.mem_of_getLast? hl)
  · have hc : ((trackText f ts).take n).count '\n' = i := by
      rw [show (trackText f ts).take n = _ from h1, List.count_append, count_unlines _ hnl', List.count_eq_zero.2 h2, List.length_take]
      omega
    rw [hc]
    have hlines : Parser.fileLines ((trackText f ts).take n) = (trackLines f ts).take i ++ (if p = [] then [] else [p]) := by
      refine Parser.fileLines_of ⟨?_, ?_⟩
      · intro l hl
        rcases List.mem_append.1 hl with hl | hl
        · exact hnl' l hl
        · split at hl
          · cases hl
          · rw [List.mem_singleton.1 hl]; exact h2
      · rw [show (trackText f ts).take n = _ from h1]
        by_cases hp : p = []
        · refine .inl ?_
          simp [hp]
        · refine .inr ⟨(trackLines f ts).take i, p, ?_, hp, rfl⟩
          rw [if_neg hp]
    unfold trackRead
    rw [hlines, trackLoop_append (linesAre_take (trackLines_are hf ts hg) i), ← entries_first rnd ts i (fun t ht => (hh t ht).1),
      group_tracks rnd (firstStates i ts) [] (first_ok ts i hh)]
    · simp
    · rw [List.map_nil, List.nil_append]
      exact hid.sublist (first_ids ts i).sublist

/-- C286: all observations whose lines reached the file are read, in order, and at most one more that was not written so (from a line cut in the middle);
    or reading fails at the line that is cut. -/
theorem C286_read_partial (hf : f.Lawful good rnd) {ts : List (FTrack ν D)} (hid : (ts.map (·.id)).Nodup) (hh : ∀ t ∈ ts, t.history ≠ [] ∧ Ordered t)
    (hg : ∀ t ∈ ts, GoodTrack good t) (n : Nat) (junkI : Nat → Int) (junk : Nat → ν) :
    (∃ e, trackRead f junkI junk ((trackText f ts).take n) = .error e) ∨
    ∃ R, trackRead f junkI junk ((trackText f ts).take n) = .ok R ∧ OneMore ((firstStates (((trackText f ts).take n).count '\n') ts).map (readBackTrack rnd)) R := by
  obtain ⟨p, _, _, h⟩ := read_cut hf hid hh hg n junkI junk
  rw [h]
  split
  · exact .inr ⟨_, rfl, .same _⟩
  · unfold trackLoop
    cases hr : readTrackLine f junkI junk p with
    | error e => exact .inl ⟨e, rfl⟩
    | ok r =>
      obtain ⟨tid, fid, feat⟩ := r
      exact .inr ⟨_, rfl, oneMore_put _ _ _ _⟩

/-- C286: if the interruption falls between two lines, exactly their observations are read. -/
theorem C286_lines_partial (hf : f.Lawful good rnd) {ts : List (FTrack ν D)} (hid : (ts.map (·.id)).Nodup) (hh : ∀ t ∈ ts, t.history ≠ [] ∧ Ordered t)
    (hg : ∀ t ∈ ts, GoodTrack good t) {n : Nat} (hn : (trackText f ts).take n = [] ∨ ((trackText f ts).take n).getLast? = some '\n') (junkI : Nat → Int) (junk : Nat → ν) :
    trackRead f junkI junk ((trackText f ts).take n) = .ok ((firstStates (((trackText f ts).take n).count '\n') ts).map (readBackTrack rnd)) := by
  obtain ⟨p, _, hp, h⟩ := read_cut hf hid hh hg n junkI junk
  rw [h, if_pos (hp.2 hn)]
  rfl

/-- C286: no other file changes; the file itself is unchanged or a first part of the text. -/
theorem C286_disk {d : Parser.Disk} {w w' : World} {n : Nat} {ts : Option (List (FTrack ν D))} {path : Str} {r : Except Exc Unit}
    (hdir : ∀ w p w1, d.makeDir w p = some w1 → w1.content = w.content) (hw : writeUntil n f d w ts path = (w', r)) :
    (∀ p, p ≠ path → w'.content p = w.content p) ∧ (w'.content path = w.content path ∨ ∃ l, ts = some l ∧ w'.content path = some ((trackText f l).take n)) := by
  unfold writeUntil at hw
  split at hw
  · cases hw; exact ⟨fun _ _ => rfl, .inl rfl⟩
  · split at hw
    · cases hw; exact ⟨fun _ _ => rfl, .inl rfl⟩
    · unfold writeText at hw
      split at hw
      · cases hw; exact ⟨fun _ _ => rfl, .inl rfl⟩
      · simp only at hw
        split at hw
        · cases hw; exact ⟨fun _ _ => rfl, .inl rfl⟩
        · rename_i w1 h1
          have hc : w1.content = w.content := by
            split at h1
            · cases h1; rfl
            · exact hdir _ _ _ h1
          cases hw
          split
          · refine ⟨fun p hp => by simp [Parser.World.store, hp, hc], .inr ⟨_, rfl, by simp [Parser.World.store]⟩⟩
          · exact ⟨fun p _ => by rw [hc], .inl (by rw [hc])⟩

/-! ### Examples -/

def oneTrack : List (FTrack Int Unit) := [⟨[⟨4, ⟨⟨100, 22⟩, 0, 1, 0, {}⟩, ()⟩], 12⟩]

/-- C286 is false of the code: `12` cut to `1` would be another track, and here a location cut off in the middle is read as another one, with a magnitude out of
    uninitialised memory. -/
theorem C286_refuted : ¬ C286_statement tensFmt (fun n => -2147483640 ≤ n ∧ n ≤ 2147483647) (fun n => n / 10 * 10) := by
  intro h
  have hr : (trackRead tensFmt (fun _ => 0) (fun _ => 9) ((trackText tensFmt oneTrack).take 11)).toOption.map (fun ts => ts.map (fun t => (t.id, t.history.map fun s => (s.feat.loc.x, s.feat.magnitude)))) =
      some [(12, [(100, 9)])] := by decide +kernel
  cases hx : trackRead tensFmt (fun _ => 0) (fun _ => 9) ((trackText tensFmt oneTrack).take 11) with
  | error e => rw [hx] at hr; cases hr
  | ok R =>
    obtain ⟨k, hk⟩ := h oneTrack 11 (fun _ => 0) (fun _ => 9) (by decide) (by intro t ht; simp [oneTrack] at ht; subst ht; simp [Ordered])
      (by intro t ht; simp [oneTrack] at ht; subst ht; simp [GoodTrack, Int64, Feature.All, Vec2.All]) R hx
    rw [hx, hk] at hr
    rcases Nat.eq_zero_or_pos k with h0 | h0
    · subst h0; revert hr; decide
    · have : firstStates k oneTrack = oneTrack := by
        unfold oneTrack firstStates
        rw [if_neg (by omega), if_neg (by simp; omega)]
        simp [firstStates]
      rw [this] at hr
      revert hr; decide

/-- The first line of the demo tracks reached the file, and a part of the second. -/
example : (trackText tensFmt demoTracks).take 36 = c!"12 -3     0 -1240 70 10 -10 1 255 0\n" ∧
    trackRead tensFmt (fun _ => 0) (fun _ => 9) ((trackText tensFmt demoTracks).take 36) = .ok ((firstStates 1 demoTracks).map (readBackTrack (fun n => n / 10 * 10))) ∧
    (firstStates 1 demoTracks).map (fun t => (t.id, t.history.map (·.frame))) = [(12, [-3])] := by
  have e : (trackText tensFmt demoTracks).take 36 = c!"12 -3     0 -1240 70 10 -10 1 255 0\n" := by decide +kernel
  have h := C286_lines_partial tensFmt_lawful (ts := demoTracks) (by decide) (by
    intro t ht
    simp [demoTracks] at ht
    rcases ht with rfl | rfl <;> simp [Ordered]) (by
    intro t ht
    simp [demoTracks] at ht
    rcases ht with rfl | rfl <;> simp [GoodTrack, Int64, Feature.All, Vec2.All, demoFeature]) (n := 36) (.inr (by rw [e]; decide)) (fun _ => 0) (fun _ => 9)
  have c : ((trackText tensFmt demoTracks).take 36).count '\n' = 1 := by rw [e]; decide
  rw [c] at h
  exact ⟨e, h, by decide⟩

end Vital.IO.TrackCrash
