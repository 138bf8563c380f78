import Verif.IO.PlyRound
import Verif.Track.Props
/-
  Model of vital/io/track_set_io.cxx: text files of tracks, and properties C55, C93, C94.

  The features are not null; descriptors are not written (`Unit` stands for the null descriptor).
-/
namespace Vital.IO
open Vital Vital.Stream Vital.Sys Vital.Track

variable {ν D : Type} {f : NumFmt ν} {good : ν → Prop} {rnd : ν → ν}

abbrev FTrack (ν D : Type) := Track.Track (Feature ν) D

/-! ### Writing -/

-- models: vital/io/track_set_io.cxx:149
def trackLine (f : NumFmt ν) (tid : Int) (s : State (Feature ν) D) : Str :=
  intStr tid ++ c!" " ++ intStr s.frame ++ c!" " ++ featureText f s.feat

-- models: vital/io/track_set_io.cxx:144-151 (lines, in order)
def trackLines (f : NumFmt ν) (ts : List (FTrack ν D)) : List Str := ts.flatMap (fun t => t.history.map (trackLine f t.id))

def trackText (f : NumFmt ν) (ts : List (FTrack ν D)) : Str := ((trackLines f ts).map (· ++ c!"\n")).flatten

-- models: vital/io/track_set_io.cxx:108-153 (write_track_file); `none` is a null pointer
def writeTrackFile (f : NumFmt ν) (d : Parser.Disk) (w : World) (ts : Option (List (FTrack ν D))) (path : Str) : World × Except Exc Unit :=
  match ts with
  | none => (w, .error .fileWrite)
  | some l => if l.length = 0 then (w, .error .fileWrite) else writeText d w path (trackText f l)

/-! ### Reading -/

/-- One line: track id, frame and feature.  `junkI`, `junk` are the uninitialised locals. -/
-- models: vital/io/track_set_io.cxx:79-83
def readTrackLine (f : NumFmt ν) (junkI : Nat → Int) (junk : Nat → ν) (line : Str) : Except Exc (Int × Int × Feature ν) :=
  match extract cInt64 (some line) (junkI 0) with
  | (s1, tid) =>
    match extract cInt64 s1 (junkI 1) with
    | (s2, fid) =>
      match readFeature f junk s2 with
      | .error e => .error e
      | .ok (_, feat) => .ok (tid, fid, feat)

/-- The track with this id gets the state; a new track is put at the end.  (The code finds the track through a map from
    the id; a track's id never changes, so the map holds exactly the tracks of the vector.) -/
-- models: vital/io/track_set_io.cxx:85-101
def putState : List (FTrack ν Unit) → Int → Int → Feature ν → List (FTrack ν Unit)
  | [], tid, fid, feat => [(appendState (setId mkEmpty tid) ⟨fid, feat, ()⟩).1]
  | t :: ts, tid, fid, feat => if t.id = tid then (appendState t ⟨fid, feat, ()⟩).1 :: ts else t :: putState ts tid fid feat

-- models: vital/io/track_set_io.cxx:77-102
def trackLoop (f : NumFmt ν) (junkI : Nat → Int) (junk : Nat → ν) : List Str → List (FTrack ν Unit) → Except Exc (List (FTrack ν Unit))
  | [], ts => .ok ts
  | l :: ls, ts =>
    match readTrackLine f junkI junk l with
    | .error e => .error e
    | .ok (tid, fid, feat) => trackLoop f junkI junk ls (putState ts tid fid feat)

def trackRead (f : NumFmt ν) (junkI : Nat → Int) (junk : Nat → ν) (text : Str) : Except Exc (List (FTrack ν Unit)) :=
  trackLoop f junkI junk (Parser.fileLines text) []

-- models: vital/io/track_set_io.cxx:55-105 (read_track_file)
def readTrackFile (f : NumFmt ν) (junkI : Nat → Int) (junk : Nat → ν) (w : World) (path : Str) : Except Exc (List (FTrack ν Unit)) :=
  if fileExists w path = false then .error .fileNotFound
  else if fileIsDirectory w path then .error .fileNotFound
  else
    match w.content path with
    | none => .error .fileNotRead
    | some text => trackRead f junkI junk text

/-! ### Specification: well-formed lines -/

/-- One observation. -/
structure Entry (ν : Type) where
  tid : Int
  frame : Int
  feat : Feature ν

/-- The line holds the ten fields of the observation, separated by white space; anything may follow. -/
structure LineIs (f : NumFmt ν) (l : Str) (e : Entry ν) : Prop where
  fields : ∃ rest a b x y m s n r g bl rv gv bv, Sep rest [a, b, x, y, m, s, n, r, g, bl] l ∧ Reads cInt64 a e.tid ∧ Reads cInt64 b e.frame ∧
    Reads f.parse x e.feat.loc.x ∧ Reads f.parse y e.feat.loc.y ∧ Reads f.parse m e.feat.magnitude ∧ Reads f.parse s e.feat.scale ∧
    Reads f.parse n e.feat.angle ∧ Reads cInt r rv ∧ Reads cInt g gv ∧ Reads cInt bl bv ∧ e.feat.color = ⟨toByte rv, toByte gv, toByte bv⟩

/-- The lines hold these observations, in order. -/
inductive LinesAre (f : NumFmt ν) : List Str → List (Entry ν) → Prop
  | nil : LinesAre f [] []
  | cons {l : Str} {e : Entry ν} {ls : List Str} {es : List (Entry ν)} (h : LineIs f l e) (r : LinesAre f ls es) : LinesAre f (l :: ls) (e :: es)

theorem readTrackLine_ok {l : Str} {e : Entry ν} (h : LineIs f l e) (junkI : Nat → Int) (junk : Nat → ν) :
    readTrackLine f junkI junk l = .ok (e.tid, e.frame, e.feat) := by
  obtain ⟨rest, a, b, x, y, m, s, n, r, g, bl, rv, gv, bv, hs, ha, hb, hx, hy, hm, hsc, hn, hr, hg, hbl, hc⟩ := h.fields
  obtain ⟨t1, e1, k1⟩ := hs.extract ha (junkI 0)
  obtain ⟨t2, e2, k2⟩ := k1.extract hb (junkI 1)
  obtain ⟨t3, e3, k3⟩ := k2.extract hx (junk 0)
  obtain ⟨t4, e4, k4⟩ := k3.extract hy (junk 0)
  obtain ⟨t5, e5, k5⟩ := k4.extract hm (junk 1)
  obtain ⟨t6, e6, k6⟩ := k5.extract hsc (junk 2)
  obtain ⟨t7, e7, k7⟩ := k6.extract hn (junk 3)
  obtain ⟨t8, e8, k8⟩ := k7.extract hr 255
  obtain ⟨t9, e9, k9⟩ := k8.extract hg 255
  obtain ⟨t10, e10, k10⟩ := k9.extract hbl 255
  unfold readTrackLine
  simp only [e1, e2]
  have hv : readVec2 f (junk 0) (some t2) = .ok (some t4, e.feat.loc) := by
    unfold readVec2
    simp only [readCoefs, readCoef, e3, e4]
  unfold readFeature
  simp only [hv, e5, e6, e7]
  unfold readColor
  simp only [e8, e9, e10, ← hc]

/-- The tracks of a list of observations. -/
def group (es : List (Entry ν)) : List (FTrack ν Unit) := es.foldl (fun ts e => putState ts e.tid e.frame e.feat) []

theorem trackLoop_ok {ls : List Str} {es : List (Entry ν)} (h : LinesAre f ls es) (junkI : Nat → Int) (junk : Nat → ν) :
    ∀ ts, trackLoop f junkI junk ls ts = .ok (es.foldl (fun ts e => putState ts e.tid e.frame e.feat) ts) := by
  induction h with
  | nil => intro ts; rfl
  | cons h _ ih =>
    intro ts
    unfold trackLoop
    rw [readTrackLine_ok h]
    exact ih _

/-! ### C93: lines are grouped by track id -/

/-- Keep the states whose frame is above the last one kept. -/
def keepAscending : List (State (Feature ν) Unit) → List (State (Feature ν) Unit) → List (State (Feature ν) Unit)
  | kept, [] => kept
  | kept, s :: r =>
    match kept.getLast? with
    | none => keepAscending [s] r
    | some z => if z.frame < s.frame then keepAscending (kept ++ [s]) r else keepAscending kept r

/-- The observations of one track, as states. -/
def statesOf (es : List (Entry ν)) (i : Int) : List (State (Feature ν) Unit) :=
  (es.filter (fun e => decide (e.tid = i))).map (fun e => ⟨e.frame, e.feat, ()⟩)

/-- Ids in the order in which they first appear. -/
def firstIds : List Int → List Int → List Int
  | acc, [] => acc
  | acc, i :: r => if i ∈ acc then firstIds acc r else firstIds (acc ++ [i]) r

theorem appendState_id (t : FTrack ν D) (s : State (Feature ν) D) : (appendState t s).1.id = t.id := by
  unfold appendState; split <;> rfl

theorem putState_ids (ts : List (FTrack ν Unit)) (i fr : Int) (x : Feature ν) :
    (putState ts i fr x).map (·.id) = if i ∈ ts.map (·.id) then ts.map (·.id) else ts.map (·.id) ++ [i] := by
  induction ts with
  | nil => simp [putState, appendState_id, setId]
  | cons t ts ih =>
    unfold putState
    by_cases h : t.id = i
    · simp [h, appendState_id]
    · have h' : ¬ i = t.id := fun e => h e.symm
      rw [if_neg h]
      simp only [List.map_cons, ih, List.mem_cons, h', false_or]
      split <;> rfl

theorem getTrack_putState (ts : List (FTrack ν Unit)) (i j fr : Int) (x : Feature ν) :
    getTrack (putState ts i fr x) j =
      if j = i then some (appendState ((getTrack ts i).getD (setId mkEmpty i)) ⟨fr, x, ()⟩).1 else getTrack ts j := by
  unfold getTrack
  induction ts with
  | nil =>
    unfold putState
    by_cases h : j = i
    · subst h; simp [appendState_id, setId]
    · have h' : ¬ i = j := fun e => h e.symm
      simp [h, h', appendState_id, setId]
  | cons t ts ih =>
    unfold putState
    by_cases h : t.id = i
    · rw [if_pos h]
      by_cases hj : j = i
      · subst hj; simp [appendState_id, h]
      · have h' : ¬ i = j := fun e => hj e.symm
        have h2 : ¬ t.id = j := fun e => hj (e.symm.trans h)
        simp [hj, h2, appendState_id]
    · rw [if_neg h]
      by_cases hj : t.id = j
      · have : ¬ j = i := fun e => h (hj.trans e)
        simp [hj, this]
      · simp only [List.find?_cons, hj, decide_false, h] at ih ⊢
        exact ih

theorem group_snoc (es : List (Entry ν)) (e : Entry ν) : group (es ++ [e]) = putState (group es) e.tid e.frame e.feat := by
  unfold group; rw [List.foldl_append]; rfl

theorem firstIds_snoc (l : List Int) (i : Int) : ∀ acc, firstIds acc (l ++ [i]) = if i ∈ firstIds acc l then firstIds acc l else firstIds acc l ++ [i] := by
  induction l with
  | nil => intro acc; rfl
  | cons j l ih =>
    intro acc
    show firstIds acc (j :: (l ++ [i])) = _
    unfold firstIds
    split
    · exact ih acc
    · exact ih _

theorem keepAscending_snoc (l : List (State (Feature ν) Unit)) (s : State (Feature ν) Unit) : ∀ kept,
    keepAscending kept (l ++ [s]) = match (keepAscending kept l).getLast? with
      | none => [s]
      | some z => if z.frame < s.frame then keepAscending kept l ++ [s] else keepAscending kept l := by
  induction l with
  | nil =>
    intro kept
    show keepAscending kept [s] = _
    unfold keepAscending
    cases h : kept.getLast? with
    | none => simp [keepAscending]
    | some z => simp [keepAscending]
  | cons a l ih =>
    intro kept
    show keepAscending kept (a :: (l ++ [s])) = _
    conv => lhs; unfold keepAscending
    conv => rhs; unfold keepAscending
    cases kept.getLast? with
    | none => exact ih _
    | some z =>
      simp only
      split
      · exact ih _
      · exact ih _

theorem snoc_induct {α : Type} {P : List α → Prop} (h0 : P []) (h1 : ∀ l a, P l → P (l ++ [a])) (l : List α) : P l := by
  have : ∀ r : List α, P r.reverse := by
    intro r
    induction r with
    | nil => exact h0
    | cons a r ih => rw [List.reverse_cons]; exact h1 _ _ ih
  have := this l.reverse
  rwa [List.reverse_reverse] at this

/-- C93: reading a text of well-formed lines groups them by track id: the tracks come in the order in which their ids first
    appear, each id once; a track holds the observations of its id in file order, without those whose frame is not above
    the frame kept before. -/
theorem C93_groups {text : Str} {ls : List Str} {es : List (Entry ν)} (ht : Parser.fileLines text = ls) (hl : LinesAre f ls es)
    (junkI : Nat → Int) (junk : Nat → ν) :
    ∃ ts, trackRead f junkI junk text = .ok ts ∧ ts.map (·.id) = firstIds [] (es.map (·.tid)) ∧
      (∀ i, i ∈ es.map (·.tid) → getTrack ts i = some ⟨keepAscending [] (statesOf es i), i⟩) ∧
      (∀ i, i ∉ es.map (·.tid) → getTrack ts i = none) := by
  refine ⟨group es, ?_, ?_⟩
  · unfold trackRead
    rw [ht]
    exact trackLoop_ok hl junkI junk []
  · clear hl
    induction es using snoc_induct with
    | h0 => simp [group, firstIds, getTrack]
    | h1 es e ih =>
      obtain ⟨i1, i2, i3⟩ := ih
      rw [group_snoc]
      refine ⟨?_, ?_, ?_⟩
      · rw [putState_ids, i1, List.map_append, List.map_cons, List.map_nil, firstIds_snoc]
      · intro i hi
        rw [getTrack_putState]
        have hst : statesOf (es ++ [e]) i = if e.tid = i then statesOf es i ++ [⟨e.frame, e.feat, ()⟩] else statesOf es i := by
          unfold statesOf
          rw [List.filter_append]
          by_cases he : e.tid = i
          · simp [he]
          · simp [he]
        by_cases he : i = e.tid
        · rw [if_pos he, hst, if_pos he.symm, keepAscending_snoc]
          have hcur : (getTrack (group es) e.tid).getD (setId mkEmpty e.tid) = ⟨keepAscending [] (statesOf es i), i⟩ := by
            by_cases hm : i ∈ es.map (·.tid)
            · rw [← he, i2 i hm]; rfl
            · have hz : statesOf es i = [] := by
                unfold statesOf
                rw [List.map_eq_nil_iff, List.filter_eq_nil_iff]
                intro x hx hd
                exact hm (List.mem_map.2 ⟨x, hx, by simpa using hd⟩)
              rw [← he, i3 i hm, hz]; rfl
          rw [hcur]
          unfold appendState lastFrame
          cases hlast : (keepAscending [] (statesOf es i)).getLast? with
          | none =>
            have : keepAscending [] (statesOf es i) = [] := by simpa using hlast
            simp [this]
          | some z =>
            have hne : keepAscending [] (statesOf es i) ≠ [] := by intro h; rw [h] at hlast; simp at hlast
            simp only
            have hemp : (keepAscending [] (statesOf es i)).isEmpty = false := by
              cases h : keepAscending [] (statesOf es i) with
              | nil => exact absurd h hne
              | cons => rfl
            simp only [hemp, Bool.not_false, Bool.true_and, decide_eq_true_eq, ge_iff_le]
            by_cases hz : z.frame < e.frame
            · rw [if_neg (by omega), if_pos hz]
            · rw [if_pos (by omega), if_neg hz]
        · rw [if_neg he, hst, if_neg (fun h => he h.symm)]
          refine i2 i ?_
          rw [List.map_append] at hi
          rcases List.mem_append.1 hi with hi | hi
          · exact hi
          · simp at hi; exact absurd hi he
      · intro i hi
        rw [List.map_append, List.mem_append] at hi
        have h1 : ¬ i = e.tid := fun h => hi (.inr (by simp [h]))
        rw [getTrack_putState, if_neg h1]
        exact i3 i (fun h => hi (.inl h))

/-! ### C55: round trip -/

/-- A track after writing and reading: numbers rounded, descriptors dropped. -/
def readBackTrack (rnd : ν → ν) (t : FTrack ν D) : FTrack ν Unit :=
  ⟨t.history.map (fun s => ⟨s.frame, s.feat.map rnd, ()⟩), t.id⟩

theorem trackLine_is (hf : f.Lawful good rnd) {i : Int} {s : State (Feature ν) D} (hi : Int64 i) (hs : Int64 s.frame) (hx : s.feat.All good) :
    LineIs f (trackLine f i s) ⟨i, s.frame, s.feat.map rnd⟩ := by
  have hw := (((int_word i).words.blank (int_word s.frame).words (by simp)).blank (feature_words hf s.feat) (by simp)) [] ends_nil
  refine ⟨[], _, _, _, _, _, _, _, _, _, _, _, _, _, ?_, intEx_reads _ _ _ hi.1 hi.2, intEx_reads _ _ _ hs.1 hs.2, hf.reads hx.1.1, hf.reads hx.1.2,
    hf.reads hx.2.1, hf.reads hx.2.2.1, hf.reads hx.2.2.2, cInt_byte s.feat.color.r, cInt_byte s.feat.color.g, cInt_byte s.feat.color.b, ?_⟩
  · rw [List.append_nil] at hw; exact hw
  · simp only [toByte_val]; rfl

/-- The observations of a list of tracks. -/
def entriesOf (rnd : ν → ν) (ts : List (FTrack ν D)) : List (Entry ν) :=
  ts.flatMap (fun t => t.history.map (fun s => ⟨t.id, s.frame, s.feat.map rnd⟩))

/-- Ids and frames fit `int64_t`, numbers are finite. -/
def GoodTrack (good : ν → Prop) (t : FTrack ν D) : Prop := Int64 t.id ∧ ∀ s ∈ t.history, Int64 s.frame ∧ s.feat.All good

theorem LinesAre.append {l l' : List Str} {e e' : List (Entry ν)} (h : LinesAre f l e) (h' : LinesAre f l' e') : LinesAre f (l ++ l') (e ++ e') := by
  induction h with
  | nil => exact h'
  | cons h _ ih => exact .cons h ih

theorem trackLines_are (hf : f.Lawful good rnd) (ts : List (FTrack ν D)) (h : ∀ t ∈ ts, GoodTrack good t) :
    LinesAre f (trackLines f ts) (entriesOf rnd ts) := by
  unfold trackLines entriesOf
  induction ts with
  | nil => exact .nil
  | cons t ts ih =>
    rw [List.flatMap_cons, List.flatMap_cons]
    refine LinesAre.append ?_ (ih (fun x hx => h x (by simp [hx])))
    obtain ⟨hi, hs⟩ := h t (by simp)
    generalize t.history = hist at hs
    induction hist with
    | nil => exact .nil
    | cons s hist ih2 =>
      have h1 := hs s (by simp)
      exact .cons (trackLine_is hf hi h1.1 h1.2) (ih2 (fun x hx => hs x (by simp [hx])))

theorem putState_append {acc : List (FTrack ν Unit)} {i : Int} (h : ∀ t ∈ acc, t.id ≠ i) (ts : List (FTrack ν Unit)) (fr : Int) (x : Feature ν) :
    putState (acc ++ ts) i fr x = acc ++ putState ts i fr x := by
  induction acc with
  | nil => rfl
  | cons a acc ih =>
    show putState (a :: (acc ++ ts)) i fr x = a :: (acc ++ putState ts i fr x)
    conv => lhs; unfold putState
    rw [if_neg (h a (by simp)), ih (fun t ht => h t (by simp [ht]))]

/-- The states of one track, put one after the other. -/
theorem foldl_states {acc : List (FTrack ν Unit)} {i : Int} (h : ∀ t ∈ acc, t.id ≠ i) (r : List (State (Feature ν) Unit)) :
    ∀ pre : List (State (Feature ν) Unit), pre ≠ [] → (pre ++ r).Pairwise (fun a b => a.frame < b.frame) →
      r.foldl (fun ts s => putState ts i s.frame s.feat) (acc ++ [⟨pre, i⟩]) = acc ++ [⟨pre ++ r, i⟩] := by
  induction r with
  | nil => intro pre _ _; simp
  | cons s r ih =>
    intro pre hne hp
    rw [List.foldl_cons, putState_append h]
    have : putState [(⟨pre, i⟩ : FTrack ν Unit)] i s.frame s.feat = [⟨pre ++ [s], i⟩] := by
      unfold putState
      rw [if_pos rfl]
      unfold appendState lastFrame
      cases hl : pre.getLast? with
      | none => simp at hl; exact absurd hl hne
      | some z =>
        have hz : z ∈ pre := List.mem_of_getLast? hl
        have : z.frame < s.frame := (List.pairwise_append.1 hp).2.2 z hz s (by simp)
        simp only
        rw [if_neg (by simp; intro _; omega)]
    rw [this, ih (pre ++ [s]) (by simp) (by simpa using hp)]
    simp

theorem group_tracks (rnd : ν → ν) (ts : List (FTrack ν D)) : ∀ acc : List (FTrack ν Unit), (∀ t ∈ ts, t.history ≠ [] ∧ Ordered t) →
    ((acc.map (·.id)) ++ ts.map (·.id)).Nodup →
    (entriesOf rnd ts).foldl (fun ts e => putState ts e.tid e.frame e.feat) acc = acc ++ ts.map (readBackTrack rnd) := by
  induction ts with
  | nil => intro acc _ _; simp [entriesOf]
  | cons t ts ih =>
    intro acc hh hn
    obtain ⟨hne, ho⟩ := hh t (by simp)
    have hacc : ∀ u ∈ acc, u.id ≠ t.id := by
      intro u hu e
      have := (List.nodup_append.1 hn).2.2 u.id (List.mem_map.2 ⟨u, hu, rfl⟩) t.id (by simp)
      exact this e
    have hstep : (t.history.map (fun s => (⟨t.id, s.frame, s.feat.map rnd⟩ : Entry ν))).foldl (fun ts e => putState ts e.tid e.frame e.feat) acc =
        acc ++ [readBackTrack rnd t] := by
      unfold readBackTrack
      unfold Ordered at ho
      cases hist : t.history with
      | nil => exact absurd hist hne
      | cons s r =>
        rw [hist] at ho
        simp only [List.map_cons, List.foldl_cons]
        have e0 : putState acc t.id s.frame (s.feat.map rnd) = acc ++ [⟨[⟨s.frame, s.feat.map rnd, ()⟩], t.id⟩] := by
          have := putState_append hacc [] s.frame (s.feat.map rnd)
          rw [List.append_nil] at this
          rw [this]
          simp [putState, appendState, mkEmpty, setId]
        rw [e0]
        have key := foldl_states hacc (r.map (fun s => (⟨s.frame, s.feat.map rnd, ()⟩ : State (Feature ν) Unit))) [⟨s.frame, s.feat.map rnd, ()⟩] (by simp)
          (by
            have h2 : (s :: r).map (fun s => (⟨s.frame, s.feat.map rnd, ()⟩ : State (Feature ν) Unit)) =
              [⟨s.frame, s.feat.map rnd, ()⟩] ++ r.map (fun s => (⟨s.frame, s.feat.map rnd, ()⟩ : State (Feature ν) Unit)) := rfl
            rw [← h2]
            exact List.pairwise_map.2 ho)
        rw [List.foldl_map] at key ⊢
        exact key
    have e : entriesOf rnd (t :: ts) = t.history.map (fun s => (⟨t.id, s.frame, s.feat.map rnd⟩ : Entry ν)) ++ entriesOf rnd ts := by
      unfold entriesOf; rw [List.flatMap_cons]
    rw [e, List.foldl_append, hstep, ih (acc ++ [readBackTrack rnd t]) (fun x hx => hh x (by simp [hx]))]
    · simp
    · have : (acc ++ [readBackTrack rnd t]).map (·.id) ++ ts.map (·.id) = acc.map (·.id) ++ (t :: ts).map (·.id) := by
        simp [readBackTrack]
      rw [this]; exact hn

theorem joinWith_mem (sep : Str) (l : List Str) : ∀ c ∈ joinWith sep l, c ∈ sep ∨ ∃ w ∈ l, c ∈ w := by
  induction l with
  | nil => intro c hc; simp [joinWith] at hc
  | cons a l ih =>
    intro c hc
    cases l with
    | nil => exact .inr ⟨a, by simp, by simpa [joinWith] using hc⟩
    | cons b l =>
      rw [joinWith_cons _ _ _ (by simp)] at hc
      rcases List.mem_append.1 hc with hc | hc
      · exact .inr ⟨a, by simp, hc⟩
      · rcases List.mem_append.1 hc with hc | hc
        · exact .inl hc
        · rcases ih c hc with h | ⟨w, hw, h⟩
          · exact .inl h
          · exact .inr ⟨w, by simp at hw ⊢; exact .inr hw, h⟩

theorem row_no_newline {ws : List Str} (h : ∀ w ∈ ws, '\n' ∉ w) : '\n' ∉ eigenText [ws] := by
  unfold eigenText
  generalize (([ws] : List (List Str)).flatten.map List.length).foldl max 0 = width
  intro hc
  simp only [List.map_cons, List.map_nil, joinWith] at hc
  rcases joinWith_mem _ _ _ hc with hc | ⟨w, hw, hc⟩
  · simp at hc
  · obtain ⟨v, hv, rfl⟩ := List.mem_map.1 hw
    unfold padTo at hc
    rcases List.mem_append.1 hc with hc | hc
    · have := (List.mem_replicate.1 hc).2
      revert this; decide
    · exact h v hv hc

theorem trackLine_no_newline (hf : f.Lawful good rnd) (i : Int) (s : State (Feature ν) D) : '\n' ∉ trackLine f i s := by
  have hx : ∀ x, '\n' ∉ f.text x := fun x => no_newline (hf.nospace x)
  have hn : ∀ n, '\n' ∉ natStr n := fun n => no_newline (natStr_no_space n)
  have hi : ∀ n, '\n' ∉ intStr n := fun n => no_newline (intStr_no_space n)
  have hrow : '\n' ∉ eigenText [[f.text s.feat.loc.x, f.text s.feat.loc.y]] := row_no_newline (by
    intro w hw; simp at hw; rcases hw with rfl | rfl <;> exact hx _)
  unfold trackLine featureText colorText
  simp [hx, hn, hi, hrow]

theorem trackText_lines (hf : f.Lawful good rnd) (ts : List (FTrack ν D)) : Parser.fileLines (trackText f ts) = trackLines f ts := by
  refine Parser.fileLines_of ⟨?_, .inl rfl⟩
  intro l hl
  unfold trackLines at hl
  obtain ⟨t, _, hl⟩ := List.mem_flatMap.1 hl
  obtain ⟨s, _, rfl⟩ := List.mem_map.1 hl
  exact trackLine_no_newline hf _ s

/-- C55: reading the text written for tracks with distinct ids and non-empty histories in frame order yields the same tracks
    in the same order, each with the same frames and features (numbers up to the printed precision). -/
theorem C55_round_trip (hf : f.Lawful good rnd) {ts : List (FTrack ν D)} (hid : (ts.map (·.id)).Nodup)
    (hh : ∀ t ∈ ts, t.history ≠ [] ∧ Ordered t) (hg : ∀ t ∈ ts, GoodTrack good t) (junkI : Nat → Int) (junk : Nat → ν) :
    trackRead f junkI junk (trackText f ts) = .ok (ts.map (readBackTrack rnd)) := by
  unfold trackRead
  rw [trackText_lines hf, trackLoop_ok (trackLines_are hf ts hg), group_tracks rnd ts [] hh (by simpa using hid)]
  rfl

/-- C55 on files. -/
theorem C55_files (hf : f.Lawful good rnd) {ts : List (FTrack ν D)} (hid : (ts.map (·.id)).Nodup) (hne : ts ≠ [])
    (hh : ∀ t ∈ ts, t.history ≠ [] ∧ Ordered t) (hg : ∀ t ∈ ts, GoodTrack good t) (junkI : Nat → Int) (junk : Nat → ν)
    {d : Parser.Disk} {w w1 : World} {path : Str} (hpath : path ≠ []) (hdir : w.isDir path = false) (hprep : Prepared d w path w1)
    (hcan : d.canWrite w1 path = true) (hw1 : w1.isDir path = false) :
    ∃ w', writeTrackFile f d w (some ts) path = (w', .ok ()) ∧ readTrackFile f junkI junk w' path = .ok (ts.map (readBackTrack rnd)) := by
  refine ⟨Parser.World.store w1 path (trackText f ts), ?_, ?_⟩
  · show (if ts.length = 0 then _ else _) = _
    rw [if_neg (by simpa using hne)]
    exact writeText_ok _ hdir hprep hcan
  · have hd : fileIsDirectory (Parser.World.store w1 path (trackText f ts)) path = false := by
      unfold fileIsDirectory Parser.World.store
      simp [hw1]
    unfold readTrackFile
    rw [if_neg (by unfold fileExists Parser.World.store; simp [hpath]), hd]
    unfold Parser.World.store
    simp only [if_true, Bool.false_eq_true, if_false]
    exact C55_round_trip hf hid hh hg junkI junk

/-! ### C94: what is read depends on the text only -/

/-- The full claim: the tracks read are determined by the text. -/
def C94_statement : Prop :=
  ∀ (text : Str) (junkI junkI' : Nat → Int) (junk junk' : Nat → Int), trackRead intFmt junkI junk text = trackRead intFmt junkI' junk' text

/-- It is false: a line with a location but no magnitude stores an indeterminate magnitude. -/
theorem C94_refuted : ¬ C94_statement := by
  intro h
  have := congrArg (fun r => r.toOption.map (fun ts => ts.map (fun t => t.history.map (fun s => s.feat.magnitude))))
    (h (c!"1 2 3 4\n") (fun _ => 0) (fun _ => 0) (fun _ => 0) (fun _ => 9))
  revert this
  decide +kernel

/-- It holds when every line has its ten fields. -/
theorem C94_partial {text : Str} {es : List (Entry ν)} (hl : LinesAre f (Parser.fileLines text) es) (junkI junkI' : Nat → Int) (junk junk' : Nat → ν) :
    trackRead f junkI junk text = trackRead f junkI' junk' text := by
  unfold trackRead
  rw [trackLoop_ok hl, trackLoop_ok hl]

theorem extract_failed {α : Type} (p : Extractor α) (v : α) : extract p none v = (none, v) := rfl

theorem extract_blank {α : Type} (p : Extractor α) {s : Str} (h : ∀ c ∈ s, isSpace c = true) (v : α) : extract p (some s) v = (none, v) := by
  have := extract_spaces p h [] v
  rw [List.append_nil] at this
  rw [this]; rfl

theorem readTrackLine_blank {l : Str} (h : ∀ c ∈ l, isSpace c = true) (junkI : Nat → Int) (junk : Nat → ν) :
    readTrackLine f junkI junk l = .error .invalidData := by
  unfold readTrackLine readFeature readVec2
  simp only [extract_blank cInt64 h, extract_failed, readCoefs, readCoef]

theorem readCoefs_error {n : Nat} {junk : ν} : ∀ {s : IStr} {e : Exc}, readCoefs f junk n s = .error e → e = .invalidData := by
  induction n with
  | zero => intro s e h; simp [readCoefs] at h
  | succ n ih =>
    intro s e h
    unfold readCoefs readCoef at h
    cases hx : extract f.parse s junk with
    | mk t x =>
      cases t with
      | none => simp [hx] at h; exact h.symm
      | some t =>
        simp only [hx] at h
        cases h2 : readCoefs f junk n (some t) with
        | ok p => simp [h2] at h
        | error e' => simp [h2] at h; exact h ▸ ih h2

theorem readTrackLine_error {l : Str} {junkI : Nat → Int} {junk : Nat → ν} {e : Exc} (h : readTrackLine f junkI junk l = .error e) : e = .invalidData := by
  unfold readTrackLine readFeature readVec2 at h
  cases h1 : extract cInt64 (some l) (junkI 0) with
  | mk s1 a =>
    cases h2 : extract cInt64 s1 (junkI 1) with
    | mk s2 b =>
      simp only [h1, h2] at h
      cases h3 : readCoefs f (junk 0) 2 s2 with
      | error e' =>
        simp only [h3] at h
        injection h with h
        exact h ▸ readCoefs_error h3
      | ok p =>
        obtain ⟨t, xs⟩ := p
        simp only [h3] at h
        match xs, h with
        | [], h => simp at h; exact h.symm
        | [_], h => simp at h; exact h.symm
        | [_, _], h => simp at h
        | _ :: _ :: _ :: _, h => simp at h; exact h.symm

/-- C94: a blank line anywhere makes the read throw `invalid_data`, whatever the other lines are; no other exception comes from
    the text. -/
theorem C94_blank_line {text l : Str} (hl : l ∈ Parser.fileLines text) (hb : ∀ c ∈ l, isSpace c = true) (junkI : Nat → Int) (junk : Nat → ν) :
    trackRead f junkI junk text = .error .invalidData := by
  unfold trackRead
  generalize Parser.fileLines text = ls at hl
  generalize ([] : List (FTrack ν Unit)) = ts
  induction ls generalizing ts with
  | nil => simp at hl
  | cons a ls ih =>
    unfold trackLoop
    cases h : readTrackLine f junkI junk a with
    | error e => simp only; rw [readTrackLine_error h]
    | ok p =>
      simp only
      rcases List.mem_cons.1 hl with rfl | hl
      · rw [readTrackLine_blank hb] at h; simp at h
      · exact ih hl _

theorem C94_errors {text : Str} {junkI : Nat → Int} {junk : Nat → ν} {e : Exc} (h : trackRead f junkI junk text = .error e) : e = .invalidData := by
  unfold trackRead at h
  generalize Parser.fileLines text = ls at h
  generalize ([] : List (FTrack ν Unit)) = ts at h
  induction ls generalizing ts with
  | nil => simp [trackLoop] at h
  | cons a ls ih =>
    unfold trackLoop at h
    cases h1 : readTrackLine f junkI junk a with
    | error e' =>
      simp only [h1] at h
      injection h with h
      exact h ▸ readTrackLine_error h1
    | ok p => simp only [h1] at h; exact ih _ h

/-! ### C91 for tracks -/

theorem C91_track_throws (d : Parser.Disk) (w : World) (ts : Option (List (FTrack ν D))) (path : Str) :
    ((writeTrackFile f d w ts path).2 = .error .fileWrite ↔
      (ts = none ∨ ts = some []) ∨ fileIsDirectory w path = true ∨
        (fileIsDirectory w (getFilenamePath w (collapseFullPath w path)) = false ∧ d.makeDir w (getFilenamePath w (collapseFullPath w path)) = none)) ∧
    ((writeTrackFile f d w ts path).2 ≠ .ok () → (writeTrackFile f d w ts path).1 = w ∧ (writeTrackFile f d w ts path).2 = .error .fileWrite) := by
  unfold writeTrackFile
  cases ts with
  | none => simp
  | some l =>
    cases l with
    | nil => simp
    | cons e l =>
      simp only [List.length_cons, Nat.add_one_ne_zero, if_false]
      refine ⟨?_, (writeText_throws d w path _).2⟩
      rw [(writeText_throws d w path _).1]
      simp

theorem C91_track_read (junkI : Nat → Int) (junk : Nat → ν) (w : World) (path : Str) :
    (readTrackFile f junkI junk w path = .error .fileNotFound ↔ fileExists w path = false ∨ fileIsDirectory w path = true) ∧
    (readTrackFile f junkI junk w path = .error .fileNotRead ↔ fileExists w path = true ∧ fileIsDirectory w path = false ∧ w.content path = none) ∧
    (∀ text, fileExists w path = true → fileIsDirectory w path = false → w.content path = some text →
      readTrackFile f junkI junk w path = trackRead f junkI junk text) := by
  have key : ∀ text e, trackRead f junkI junk text = .error e → e = .invalidData := fun _ _ h => C94_errors h
  unfold readTrackFile
  cases h1 : fileExists w path <;> cases h3 : fileIsDirectory w path <;> cases h2 : w.content path <;> simp
  all_goals
    refine ⟨fun h => ?_, fun h => ?_⟩ <;> have := key _ _ h <;> exact absurd this (by decide)

/-! ### Non-trivial cases -/

def demoTracks : List (FTrack Int Nat) :=
  [⟨[⟨-3, demoFeature, 1⟩, ⟨4, ⟨⟨100, 2⟩, 0, 1, 0, {}⟩, 2⟩], 12⟩, ⟨[⟨0, ⟨⟨7, 7⟩, 1, 1, 1, ⟨9, 8, 7⟩⟩, 0⟩], 3⟩]

example : (demoTracks.map (·.id)).Nodup ∧ (∀ t ∈ demoTracks, t.history ≠ [] ∧ Ordered t) ∧
    (∀ t ∈ demoTracks, GoodTrack (fun n => -2147483640 ≤ n ∧ n ≤ 2147483647) t) := by
  refine ⟨by decide, ?_, ?_⟩
  · intro t ht
    simp [demoTracks] at ht
    rcases ht with rfl | rfl <;> simp [Ordered]
  · intro t ht
    simp [demoTracks] at ht
    rcases ht with rfl | rfl <;> simp [GoodTrack, Int64, Feature.All, Vec2.All, demoFeature]

example : trackText tensFmt demoTracks =
    c!"12 -3     0 -1240 70 10 -10 1 255 0\n12 4 100   0 0 0 0 255 255 255\n3 0 0 0 0 0 0 9 8 7\n" := by decide +kernel

/-- Interleaved lines, with a frame that goes back. -/
example : (trackRead intFmt (fun _ => 0) (fun _ => 0)
      (c!"5 1 1 1 1 1 1 1 1 1\n2 1 2 2 1 1 1 1 1 1\n5 3 3 3 1 1 1 1 1 1\n5 2 4 4 1 1 1 1 1 1")).toOption.map
      (fun ts => ts.map (fun t => (t.id, t.history.map (fun s => (s.frame, s.feat.loc.x))))) =
    some [(5, [(1, 1), (3, 3)]), (2, [(1, 2)])] := by decide +kernel

end Vital.IO
