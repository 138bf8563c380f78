import Verif.Basic.Str
/-
  Model of feature tracks and track sets (vital/types/track.{h,cxx}, track_set.{h,cxx}).
  Features and descriptors are opaque values (shared pointers that are only copied).
-/
namespace Vital.Track
open Vital

variable {F D : Type}

-- models: vital/types/track.h:63-79 (track::track_state)
structure State (F D : Type) where
  frame : Int
  feat : F
  desc : D

-- models: vital/types/track.h:149-153 (data members)
structure Track (F D : Type) where
  history : List (State F D)
  id : Int

-- models: vital/types/track.cxx:58-63 (default constructor)
def mkEmpty : Track F D := { history := [], id := 0 }
-- models: vital/types/track.cxx:75-81 (constructor from one state)
def mkSingle (s : State F D) : Track F D := { history := [s], id := 0 }
-- models: vital/types/track.cxx:66-72 (copy constructor)
def copy (t : Track F D) : Track F D := { history := t.history, id := t.id }
-- models: vital/types/track.h:99 (set_id)
def setId (t : Track F D) (i : Int) : Track F D := { t with id := i }

-- models: vital/types/track.cxx:84-94 (first_frame)
def firstFrame (t : Track F D) : Int :=
  match t.history with
  | [] => 0
  | s :: _ => s.frame

-- models: vital/types/track.cxx:97-107 (last_frame)
def lastFrame (t : Track F D) : Int :=
  match t.history.getLast? with
  | none => 0
  | some s => s.frame

-- models: vital/types/track.cxx:110-122 (append(track_state))
def appendState (t : Track F D) (s : State F D) : Track F D × Bool :=
  if !t.history.isEmpty && decide (lastFrame t ≥ s.frame) then (t, false)
  else ({ t with history := t.history ++ [s] }, true)

-- models: vital/types/track.cxx:125-137 (append(track))
def appendTrack (t u : Track F D) : Track F D × Bool :=
  if !t.history.isEmpty && !u.history.isEmpty && decide (lastFrame t ≥ firstFrame u) then (t, false)
  else ({ t with history := t.history ++ u.history }, true)

/-- `std::lower_bound` (libstdc++): binary search on `[first, first+len)`.  The first argument bounds
    the iterations (len strictly decreases). -/
-- models: std::lower_bound as used in vital/types/track.cxx:150-151 with compare_state_frame (42-49)
def lowerBound (h : List (State F D)) (frame : Int) : Nat → Nat → Nat → Nat
  | 0, first, _ => first
  | fuel + 1, first, len =>
    if len = 0 then first
    else
      let half := len / 2
      let mid := first + half
      match h[mid]? with
      | none => first
      | some s =>
        if s.frame < frame then lowerBound h frame fuel (mid + 1) (len - half - 1)
        else lowerBound h frame fuel first half

-- models: vital/types/track.cxx:140-157 (find); `none` is end(), `some i` the iterator begin()+i
def find (t : Track F D) (frame : Int) : Option Nat :=
  if frame < firstFrame t ∨ frame > lastFrame t then none
  else
    let it := lowerBound t.history frame (t.history.length + 1) 0 t.history.length
    match t.history[it]? with
    | none => none
    | some s => if s.frame = frame then some it else none

/-- `std::set<int64_t>::insert`: sorted list without duplicates. -/
def setInsert : List Int → Int → List Int
  | [], x => [x]
  | y :: l, x => if x < y then x :: y :: l else if y < x then y :: setInsert l x else y :: l

-- models: vital/types/track.cxx:160-172 (track::all_frame_ids)
def frameIds (t : Track F D) : List Int := t.history.foldl (fun a s => setInsert a s.frame) []

/-! ### Track sets: `simple_track_set` wraps a vector of tracks -/

abbrev TrackSet (F D : Type) := List (Track F D)

-- models: vital/types/track_set.cxx:62-77 (all_frame_ids)
def allFrameIds (ts : TrackSet F D) : List Int :=
  ts.foldl (fun a t => (frameIds t).foldl setInsert a) []

-- models: vital/types/track_set.cxx:80-94 (all_track_ids)
def allTrackIds (ts : TrackSet F D) : List Int := ts.foldl (fun a t => setInsert a t.id) []

-- models: vital/types/track_set.cxx:97-114 (last_frame)
def setLastFrame (ts : TrackSet F D) : Int :=
  ts.foldl (fun last t => if lastFrame t > last then lastFrame t else last) 0

-- models: vital/types/track_set.cxx:117-134 (first_frame)
def setFirstFrame (ts : TrackSet F D) : Int :=
  ts.foldl (fun first t => if firstFrame t < first then firstFrame t else first) 0

-- models: vital/types/track_set.cxx:137-153 (get_track)
def getTrack (ts : TrackSet F D) (tid : Int) : Option (Track F D) := ts.find? (fun t => decide (t.id = tid))

def int64Min : Int := -9223372036854775808
def int64Max : Int := 9223372036854775807

-- models: vital/types/track_set.cxx:353-370 (offset_to_frame); `none` is signed overflow (undefined
-- behaviour) of `last_frame() + 1` or `-offset`
def offsetToFrame (ts : TrackSet F D) (offset : Int) : Option Int :=
  if offset ≥ 0 then some offset
  else if setLastFrame ts ≥ int64Max ∨ offset ≤ int64Min then none
  else
    let frameNumber := setLastFrame ts + 1
    if -offset ≤ frameNumber then some (frameNumber + offset) else some frameNumber

-- models: vital/types/track_set.cxx:155-173 (active_tracks)
def activeTracks (ts : TrackSet F D) (offset : Int) : Option (TrackSet F D) :=
  match offsetToFrame ts offset with
  | none => none
  | some f => some (ts.filter (fun t => (find t f).isSome))

-- models: vital/types/track_set.cxx:176-194 (inactive_tracks)
def inactiveTracks (ts : TrackSet F D) (offset : Int) : Option (TrackSet F D) :=
  match offsetToFrame ts offset with
  | none => none
  | some f => some (ts.filter (fun t => (find t f).isNone))

-- models: vital/types/track_set.cxx:197-215 (new_tracks)
def newTracks (ts : TrackSet F D) (offset : Int) : Option (TrackSet F D) :=
  match offsetToFrame ts offset with
  | none => none
  | some f => some (ts.filter (fun t => decide (firstFrame t = f)))

-- models: vital/types/track_set.cxx:218-236 (terminated_tracks)
def terminatedTracks (ts : TrackSet F D) (offset : Int) : Option (TrackSet F D) :=
  match offsetToFrame ts offset with
  | none => none
  | some f => some (ts.filter (fun t => decide (lastFrame t = f)))

-- models: vital/types/track_set.cxx:239-264 (percentage_tracked): numerator and denominator of the
-- returned quotient (0/0 stands for the special result 0.0); the division in double is not modelled
def percentageTracked (ts : TrackSet F D) (o1 o2 : Int) : Option (Nat × Nat) :=
  match offsetToFrame ts o1, offsetToFrame ts o2 with
  | some f1, some f2 =>
    some (ts.foldl (fun (a : Nat × Nat) t =>
      let on1 := (find t f1).isSome
      let on2 := (find t f2).isSome
      (a.1 + (if on1 && on2 then 1 else 0), a.2 + (if on1 || on2 then 1 else 0))) (0, 0))
  | _, _ => none

/-- The loop body shared by `last_frame_features` and `last_frame_descriptors` (they differ only in the
    member `g` that is pushed); `none` = dereferencing `end()-1` of an empty history (undefined behaviour). -/
-- models: vital/types/track_set.cxx:276-282 and 297-303
def lastFrameStep {G : Type} (g : State F D → G) (lf : Int) (acc : Option (List G)) (t : Track F D) : Option (List G) :=
  match acc with
  | none => none
  | some l =>
    if lastFrame t = lf then
      match t.history.getLast? with
      | none => none
      | some s => some (l ++ [g s])
    else some l

-- models: vital/types/track_set.cxx:267-285 (last_frame_features)
def lastFrameFeatures (ts : TrackSet F D) : Option (List F) :=
  ts.foldl (lastFrameStep (·.feat) (setLastFrame ts)) (some [])

-- models: vital/types/track_set.cxx:288-306 (last_frame_descriptors)
def lastFrameDescriptors (ts : TrackSet F D) : Option (List D) :=
  ts.foldl (lastFrameStep (·.desc) (setLastFrame ts)) (some [])

-- models: vital/types/track_set.cxx:309-328 (frame_features)
def frameFeatures (ts : TrackSet F D) (offset : Int) : Option (List F) :=
  match offsetToFrame ts offset with
  | none => none
  | some f => some (ts.filterMap (fun t => (find t f).bind (fun i => (t.history[i]?).map (·.feat))))

-- models: vital/types/track_set.cxx:331-350 (frame_descriptors)
def frameDescriptors (ts : TrackSet F D) (offset : Int) : Option (List D) :=
  match offsetToFrame ts offset with
  | none => none
  | some f => some (ts.filterMap (fun t => (find t f).bind (fun i => (t.history[i]?).map (·.desc))))

/-- Tracks that a program can build with the public API. -/
inductive Built : Track F D → Prop where
  | empty : Built mkEmpty
  | single (s) : Built (mkSingle s)
  | copy {t} : Built t → Built (copy t)
  | setId {t} (i) : Built t → Built (setId t i)
  | appendState {t} (s) : Built t → Built (appendState t s).1
  | appendTrack {t u} : Built t → Built u → Built (appendTrack t u).1

end Vital.Track
