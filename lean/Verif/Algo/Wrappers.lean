import Verif.Track.Model
import Verif.IO.PlyProps
/-
  The parts of the abstract algorithm interfaces that are implemented in this library: the overloads that prepare the
  arguments of the virtual function an arrow provides.  Properties C113 to C116.
-/
namespace Vital.Wrap
open Vital Vital.Track Vital.IO

/-! ### estimate_similarity_transform -/

/-- The iterators stand at the heads of the two lists; `get` is the accessor (`camera::center`, `landmark::loc`). -/
-- models: vital/algo/estimate_similarity_transform.cxx:117-145 (map_to_pts)
def mapToPts {α P : Type} (get : α → P) : Nat → List (Int × α) → List (Int × α) → List P → List P → List P × List P
  | 0, _, _, fp, tp => (fp, tp)
  | _ + 1, [], _, fp, tp => (fp, tp)
  | _ + 1, _ :: _, [], fp, tp => (fp, tp)
  | n + 1, a :: l, b :: r, fp, tp =>
    if b.1 < a.1 then mapToPts get n (a :: l) r fp tp
    else if a.1 < b.1 then mapToPts get n l (b :: r) fp tp
    else mapToPts get n l r (fp ++ [get a.2]) (tp ++ [get b.2])

/-- The overloads for camera and landmark maps; `est` is the virtual function on points. Null cameras are not modelled. -/
-- models: vital/algo/estimate_similarity_transform.cxx:150-181
def estimateMaps {α P S : Type} (get : α → P) (est : List P → List P → S) (src dst : List (Int × α)) : S :=
  let p := mapToPts get (src.length + dst.length + 1) src dst [] []
  est p.1 p.2

/-- The overloads for vectors of cameras and landmarks. -/
-- models: vital/algo/estimate_similarity_transform.cxx:60-97
def estimateVectors {α P S : Type} (get : α → P) (est : List P → List P → S) (src dst : List α) : S :=
  est (src.map get) (dst.map get)

/-- C113, the specification: the keys both maps have, ascending, and the points under them. -/
def Paired {α P : Type} (get : α → P) (src dst : List (Int × α)) (fp tp : List P) : Prop :=
  ∃ keys : List Int, keys.Pairwise (· < ·) ∧ (∀ k, k ∈ keys ↔ (valueAt src k).isSome = true ∧ (valueAt dst k).isSome = true) ∧
    fp.map some = keys.map (fun k => (valueAt src k).map get) ∧ tp.map some = keys.map (fun k => (valueAt dst k).map get)

theorem map_some_inj {P : Type} : ∀ {x y : List P}, x.map some = y.map some → x = y
  | [], [], _ => rfl
  | [], _ :: _, h => by simp at h
  | _ :: _, [], h => by simp at h
  | a :: x, b :: y, h => by
    simp only [List.map_cons, List.cons.injEq, Option.some.injEq] at h
    rw [h.1, map_some_inj h.2]

theorem valueAt_cons {α : Type} (e : Int × α) (l : List (Int × α)) (k : Int) :
    valueAt (e :: l) k = if e.1 = k then some e.2 else valueAt l k := by
  unfold valueAt
  by_cases h : e.1 = k <;> simp [h]

theorem valueAt_some_mem {α : Type} {l : List (Int × α)} {k : Int} (h : (valueAt l k).isSome = true) : ∃ e ∈ l, e.1 = k := by
  unfold valueAt at h
  simp only [Option.isSome_map, List.find?_isSome] at h
  obtain ⟨e, he, h⟩ := h
  exact ⟨e, he, by simpa using h⟩

theorem mapToPts_spec {α P : Type} (get : α → P) : ∀ (n : Nat) (src dst : List (Int × α)) (fp tp : List P),
    src.length + dst.length < n → Ascending src → Ascending dst →
    ∃ fp' tp', mapToPts get n src dst fp tp = (fp ++ fp', tp ++ tp') ∧ Paired get src dst fp' tp' := by
  intro n
  induction n with
  | zero => intro src dst fp tp h; omega
  | succ n ih =>
    intro src dst fp tp h hs hd
    cases src with
    | nil => exact ⟨[], [], by simp [mapToPts], [], List.Pairwise.nil, by simp [valueAt], rfl, rfl⟩
    | cons a l =>
      cases dst with
      | nil => exact ⟨[], [], by simp [mapToPts], [], List.Pairwise.nil, by simp [valueAt], rfl, rfl⟩
      | cons b r =>
        obtain ⟨hs1, hs2⟩ := List.pairwise_cons.1 hs
        obtain ⟨hd1, hd2⟩ := List.pairwise_cons.1 hd
        simp only [List.length_cons] at h
        unfold mapToPts
        -- a key outside one of the maps can be dropped from the other
        by_cases h1 : b.1 < a.1
        · rw [if_pos h1]
          obtain ⟨fp', tp', e, keys, k1, k2, k3, k4⟩ := ih (a :: l) r fp tp (by simp only [List.length_cons]; omega) hs hd2
          have hk : ∀ k, (valueAt (a :: l) k).isSome = true → valueAt (b :: r) k = valueAt r k := by
            intro k hk
            obtain ⟨e, he, rfl⟩ := valueAt_some_mem hk
            rw [valueAt_cons, if_neg]
            rcases List.mem_cons.1 he with rfl | he
            · omega
            · have := hs1 e he; omega
          refine ⟨fp', tp', e, keys, k1, ?_, k3, ?_⟩
          · intro k
            rw [k2]
            constructor <;> intro ⟨x, y⟩ <;> refine ⟨x, ?_⟩
            · rw [hk k x]; exact y
            · rw [hk k x] at y; exact y
          · rw [k4]
            apply List.map_congr_left
            intro k hkk
            rw [hk k ((k2 k).1 hkk).1]
        · rw [if_neg h1]
          by_cases h2 : a.1 < b.1
          · rw [if_pos h2]
            obtain ⟨fp', tp', e, keys, k1, k2, k3, k4⟩ := ih l (b :: r) fp tp (by simp only [List.length_cons]; omega) hs2 hd
            have hk : ∀ k, (valueAt (b :: r) k).isSome = true → valueAt (a :: l) k = valueAt l k := by
              intro k hk
              obtain ⟨e, he, rfl⟩ := valueAt_some_mem hk
              rw [valueAt_cons, if_neg]
              rcases List.mem_cons.1 he with rfl | he
              · omega
              · have := hd1 e he; omega
            refine ⟨fp', tp', e, keys, k1, ?_, ?_, k4⟩
            · intro k
              rw [k2]
              constructor <;> intro ⟨x, y⟩ <;> refine ⟨?_, y⟩
              · rw [hk k y]; exact x
              · rw [hk k y] at x; exact x
            · rw [k3]
              apply List.map_congr_left
              intro k hkk
              rw [hk k ((k2 k).1 hkk).2]
          · rw [if_neg h2]
            have hab : a.1 = b.1 := by omega
            obtain ⟨fp', tp', e, keys, k1, k2, k3, k4⟩ := ih l r (fp ++ [get a.2]) (tp ++ [get b.2]) (by omega) hs2 hd2
            have hlow : ∀ k ∈ keys, a.1 < k := by
              intro k hk
              obtain ⟨e, he, rfl⟩ := valueAt_some_mem ((k2 k).1 hk).1
              exact hs1 e he
            refine ⟨get a.2 :: fp', get b.2 :: tp', by rw [e]; simp, a.1 :: keys, List.pairwise_cons.2 ⟨hlow, k1⟩, ?_, ?_, ?_⟩
            · intro k
              rw [List.mem_cons, k2, valueAt_cons, valueAt_cons, ← hab]
              by_cases hk : a.1 = k
              · simp [hk]
              · rw [if_neg hk, if_neg hk]
                constructor
                · rintro (rfl | h)
                  · exact absurd rfl hk
                  · exact h
                · exact Or.inr
            · simp only [List.map_cons]
              rw [k3, valueAt_cons, if_pos rfl]
              congr 1
              apply List.map_congr_left
              intro k hk
              rw [valueAt_cons, if_neg (by have := hlow k hk; omega)]
            · simp only [List.map_cons]
              rw [k4, valueAt_cons, hab, if_pos rfl]
              congr 1
              apply List.map_congr_left
              intro k hk
              rw [valueAt_cons, if_neg (by have := hlow k hk; omega)]

/-- C113: for two maps the estimator is given exactly the points under the common keys, corresponding points in the same place. -/
theorem C113_pairs {α P S : Type} (get : α → P) (est : List P → List P → S) {src dst : List (Int × α)} (hs : Ascending src) (hd : Ascending dst) :
    ∃ fp tp, estimateMaps get est src dst = est fp tp ∧ fp.length = tp.length ∧ Paired get src dst fp tp := by
  obtain ⟨fp, tp, e, h⟩ := mapToPts_spec get (src.length + dst.length + 1) src dst [] [] (by omega) hs hd
  refine ⟨fp, tp, ?_, ?_, h⟩
  · unfold estimateMaps
    rw [e]
    rfl
  · obtain ⟨keys, -, -, h3, h4⟩ := h
    have e3 := congrArg List.length h3
    have e4 := congrArg List.length h4
    simp only [List.length_map] at e3 e4
    omega

/-- The common keys, ascending, are determined by the two maps: so are the points. -/
theorem C113_unique {α P : Type} (get : α → P) {src dst : List (Int × α)} {fp tp fp' tp' : List P} (h : Paired get src dst fp tp)
    (h' : Paired get src dst fp' tp') : fp = fp' ∧ tp = tp' := by
  obtain ⟨keys, a1, a2, a3, a4⟩ := h
  obtain ⟨keys', b1, b2, b3, b4⟩ := h'
  have : keys = keys' := by
    apply List.Perm.eq_of_pairwise (le := (· < ·)) ?_ a1 b1 ?_
    · intro a b _ _ h1 h2; omega
    · rw [List.perm_ext_iff_of_nodup (a1.imp (fun h => by intro e; omega)) (b1.imp (fun h => by intro e; omega))]
      intro k
      rw [a2, b2]
  subst this
  exact ⟨map_some_inj (a3.trans b3.symm), map_some_inj (a4.trans b4.symm)⟩

/-- Two maps with two common keys. -/
example : mapToPts (fun x : Nat => x) 8 [(1, 10), (3, 30), (7, 70)] [(0, 1), (3, 33), (5, 5), (7, 77)] [] [] = ([30, 70], [33, 77]) := by
  decide

/-! ### optimize_cameras -/

variable {F L D C E : Type}

/-- One state of the track `id`: `states_map[ts.frame_id][t->id()] = ts.feat`. -/
-- models: vital/algo/optimize_cameras.cxx:88-94
def noteState (cams : List (Int × C)) (id : Int) (m : List (Int × List (Int × F))) (s : State (Option F) D) : List (Int × List (Int × F)) :=
  match s.feat with
  | none => m
  | some f =>
    if (valueAt cams s.frame).isSome then mapPut m s.frame (mapPut ((valueAt m s.frame).getD []) id f)
    else m

-- models: vital/algo/optimize_cameras.cxx:80-96
def noteTrack (cams : List (Int × C)) (lms : List (Int × L)) (m : List (Int × List (Int × F))) (t : Track (Option F) D) :
    List (Int × List (Int × F)) :=
  if (valueAt lms t.id).isSome then t.history.foldl (noteState cams t.id) m else m

/-- The landmarks `lms[q.first]`; a missing one would be a null pointer (`none`). -/
-- models: vital/algo/optimize_cameras.cxx:109-115
def landmarksOf (lms : List (Int × L)) (q : List (Int × F)) : List (Option L) := q.map (fun e => valueAt lms e.1)

/-- The loop over the cameras; `opt` is the virtual function for one camera, which may throw. -/
-- models: vital/algo/optimize_cameras.cxx:104-120
def optimizeLoop (opt : C → List F → List (Option L) → Except E C) (lms : List (Int × L)) (m : List (Int × List (Int × F))) :
    List (Int × C) → List (Int × C) → Except E (List (Int × C))
  | acc, [] => .ok acc
  | acc, p :: l =>
    let q := (valueAt m p.1).getD []
    match opt p.2 (q.map (·.2)) (landmarksOf lms q) with
    | .error e => .error e
    | .ok c => optimizeLoop opt lms m (mapPut acc p.1 c) l

/-- What `optimize` may throw. -/
inductive OptErr (E : Type) where
  | invalidValue
  | impl (e : E)

/-- `optimize`: the new value of the argument `cameras`, which is unchanged when it throws. `none` is a null pointer. -/
-- models: vital/algo/optimize_cameras.cxx:55-123
def optimize (opt : C → List F → List (Option L) → Except E C) (cameras : Option (List (Int × C))) (tracks : Option (List (Track (Option F) D)))
    (landmarks : Option (List (Int × L))) : Except (OptErr E) Unit × Option (List (Int × C)) :=
  match cameras, tracks, landmarks with
  | some cams, some trks, some lms =>
    match optimizeLoop opt lms (trks.foldl (noteTrack cams lms) []) [] cams with
    | .ok r => (.ok (), some r)
    | .error e => (.error (.impl e), cameras)
  | _, _, _ => (.error .invalidValue, cameras)

/-- C114, the specification: the feature a set of tracks has under a track id on a frame (the last one if there are several). -/
def observed (ts : List (Track (Option F) D)) (frame id : Int) : Option F :=
  ((((ts.filter (fun t => decide (t.id = id))).flatMap (·.history)).filter (fun s => decide (s.frame = frame))).filterMap (·.feat)).getLast?

/-- The corresponding features and landmarks of a frame: those of the tracks with both, by ascending track id. -/
def Corresponding (ts : List (Track (Option F) D)) (lms : List (Int × L)) (frame : Int) (fs : List F) (ls : List (Option L)) : Prop :=
  ∃ ids : List Int, ids.Pairwise (· < ·) ∧ (∀ i, i ∈ ids ↔ (valueAt lms i).isSome = true ∧ (observed ts frame i).isSome = true) ∧
    fs.map some = ids.map (observed ts frame) ∧ ls = ids.map (valueAt lms)

/-! The proof: the tracks as one list of states with their ids. -/

def flat (ts : List (Track (Option F) D)) : List (Int × State (Option F) D) := ts.flatMap (fun t => t.history.map (fun s => (t.id, s)))

def obs (l : List (Int × State (Option F) D)) (frame id : Int) : Option F :=
  (l.filterMap (fun e => if e.1 = id ∧ e.2.frame = frame then e.2.feat else none)).getLast?

theorem observed_eq (ts : List (Track (Option F) D)) (frame id : Int) : observed ts frame id = obs (flat ts) frame id := by
  unfold observed obs flat
  congr 1
  induction ts with
  | nil => rfl
  | cons t ts ih =>
    rw [List.flatMap_cons, List.filterMap_append, ← ih]
    by_cases h : t.id = id
    · have h1 : (t.history.filter (fun s => decide (s.frame = frame))).filterMap (·.feat) =
          (t.history.map (fun s => (t.id, s))).filterMap (fun e => if e.1 = id ∧ e.2.frame = frame then e.2.feat else none) := by
        generalize t.history = hs
        induction hs with
        | nil => rfl
        | cons s hs ih2 =>
          simp only [List.map_cons, List.filterMap_cons, h, true_and]
          by_cases hf : s.frame = frame
          · simp only [List.filter_cons, hf, decide_true, if_true, List.filterMap_cons]
            rw [ih2]
            simp only [h]
          · simp only [List.filter_cons, hf, decide_false, if_false, Bool.false_eq_true]
            rw [ih2]
            simp only [h]
      rw [← h1, List.filter_cons, if_pos (by simpa using h), List.flatMap_cons, List.filter_append, List.filterMap_append]
    · have h1 : (t.history.map (fun s => (t.id, s))).filterMap (fun e => if e.1 = id ∧ e.2.frame = frame then e.2.feat else none) = [] := by
        rw [List.filterMap_eq_nil_iff]
        intro e he
        obtain ⟨s, -, rfl⟩ := List.mem_map.1 he
        rw [if_neg (fun hc => h hc.1)]
      rw [h1, List.filter_cons, if_neg (by simpa using h)]
      rfl

/-- One step for a state with its track's id. -/
def noteFlat (cams : List (Int × C)) (lms : List (Int × L)) (m : List (Int × List (Int × F))) (e : Int × State (Option F) D) :
    List (Int × List (Int × F)) := if (valueAt lms e.1).isSome then noteState cams e.1 m e.2 else m

theorem foldl_flat (cams : List (Int × C)) (lms : List (Int × L)) (ts : List (Track (Option F) D)) :
    ∀ m, ts.foldl (noteTrack cams lms) m = (flat ts).foldl (noteFlat cams lms) m := by
  induction ts with
  | nil => intro m; rfl
  | cons t ts ih =>
    intro m
    rw [List.foldl_cons, ih]
    unfold flat
    rw [List.flatMap_cons, List.foldl_append]
    congr 1
    unfold noteTrack
    rw [List.foldl_map]
    by_cases h : (valueAt lms t.id).isSome
    · rw [if_pos h]
      congr 1
      funext m s
      unfold noteFlat
      rw [if_pos h]
    · rw [if_neg h]
      induction t.history with
      | nil => rfl
      | cons s hs ih2 =>
        rw [List.foldl_cons]
        unfold noteFlat at *
        rw [if_neg h]
        exact ih2

/-- What the map of states holds. -/
def Noted (cams : List (Int × C)) (lms : List (Int × L)) (l : List (Int × State (Option F) D)) (m : List (Int × List (Int × F))) : Prop :=
  ∀ frame, (valueAt cams frame).isSome = true → Ascending ((valueAt m frame).getD []) ∧
    ∀ id, valueAt ((valueAt m frame).getD []) id = if (valueAt lms id).isSome = true then obs l frame id else none

theorem obs_snoc (l : List (Int × State (Option F) D)) (e : Int × State (Option F) D) (frame id : Int) :
    obs (l ++ [e]) frame id = if e.1 = id ∧ e.2.frame = frame ∧ e.2.feat.isSome = true then e.2.feat else obs l frame id := by
  unfold obs
  rw [List.filterMap_append]
  by_cases h : e.1 = id ∧ e.2.frame = frame
  · cases hf : e.2.feat with
    | none => simp [h, hf]
    | some f => simp [h, hf]
  · have h' : ¬ (e.1 = id ∧ e.2.frame = frame ∧ e.2.feat.isSome = true) := fun hc => h ⟨hc.1, hc.2.1⟩
    rw [if_neg h']
    simp [h]

theorem snoc' {α : Type} {P : List α → Prop} (nil : P []) (snoc : ∀ l a, P l → P (l ++ [a])) (l : List α) : P l := by
  rw [← List.reverse_reverse l]
  induction l.reverse with
  | nil => exact nil
  | cons a r ih => rw [List.reverse_cons]; exact snoc _ _ ih

theorem obs_other {l : List (Int × State (Option F) D)} {e : Int × State (Option F) D} {frame id : Int}
    (h : ¬ (e.1 = id ∧ e.2.frame = frame ∧ e.2.feat.isSome = true)) : obs (l ++ [e]) frame id = obs l frame id := by
  rw [obs_snoc, if_neg h]

theorem noted (cams : List (Int × C)) (lms : List (Int × L)) (l : List (Int × State (Option F) D)) :
    Noted cams lms l (l.foldl (noteFlat cams lms) []) := by
  induction l using snoc' with
  | nil =>
    intro frame _
    refine ⟨by simp [valueAt, Ascending], ?_⟩
    intro id
    have : obs ([] : List (Int × State (Option F) D)) frame id = none := rfl
    rw [this, ite_self]
    rfl
  | snoc l e ih =>
    rw [List.foldl_append, List.foldl_cons, List.foldl_nil]
    generalize l.foldl (noteFlat cams lms) [] = m at *
    unfold noteFlat noteState
    by_cases h1 : (valueAt lms e.1).isSome = true
    · rw [if_pos h1]
      cases hf : e.2.feat with
      | none =>
        intro frame hc
        refine ⟨(ih frame hc).1, fun id => ?_⟩
        rw [obs_other (by rw [hf]; simp)]
        exact (ih frame hc).2 id
      | some f =>
        simp only
        by_cases h2 : (valueAt cams e.2.frame).isSome = true
        · rw [if_pos h2]
          intro frame hc
          rw [valueAt_mapPut]
          by_cases h3 : frame = e.2.frame
          · subst h3
            rw [if_pos rfl]
            simp only [Option.getD_some]
            refine ⟨mapPut_ascending (ih _ h2).1 _ _, fun id => ?_⟩
            rw [valueAt_mapPut]
            by_cases h4 : id = e.1
            · subst h4
              rw [obs_snoc, hf]
              simp [h1]
            · rw [if_neg h4, (ih _ h2).2 id, obs_other (fun hcc => h4 hcc.1.symm)]
          · rw [if_neg h3]
            refine ⟨(ih frame hc).1, fun id => ?_⟩
            rw [obs_other (fun hcc => h3 hcc.2.1.symm)]
            exact (ih frame hc).2 id
        · rw [if_neg h2]
          intro frame hc
          refine ⟨(ih frame hc).1, fun id => ?_⟩
          rw [obs_other (fun hcc => by rw [hcc.2.1] at h2; exact h2 hc)]
          exact (ih frame hc).2 id
    · rw [if_neg h1]
      intro frame hc
      refine ⟨(ih frame hc).1, fun id => ?_⟩
      rw [(ih frame hc).2 id]
      by_cases h4 : e.1 = id
      · subst h4
        rw [if_neg h1, if_neg h1]
      · rw [obs_other (fun hcc => h4 hcc.1)]

theorem mem_valueAt {α : Type} {l : List (Int × α)} (h : Ascending l) {e : Int × α} (he : e ∈ l) : valueAt l e.1 = some e.2 := by
  induction l with
  | nil => cases he
  | cons x l ih =>
    obtain ⟨h1, h2⟩ := List.pairwise_cons.1 h
    rw [valueAt_cons]
    rcases List.mem_cons.1 he with rfl | he
    · rw [if_pos rfl]
    · rw [if_neg (by have := h1 e he; omega), ih h2 he]

theorem corresponding {cams : List (Int × C)} {lms : List (Int × L)} (ts : List (Track (Option F) D)) {frame : Int}
    (hf : (valueAt cams frame).isSome = true) :
    Corresponding ts lms frame (((valueAt (ts.foldl (noteTrack cams lms) []) frame).getD []).map (·.2))
      (landmarksOf lms ((valueAt (ts.foldl (noteTrack cams lms) []) frame).getD [])) := by
  rw [foldl_flat]
  obtain ⟨ha, hv⟩ := noted cams lms (flat ts) frame hf
  generalize (valueAt ((flat ts).foldl (noteFlat cams lms) []) frame).getD [] = q at *
  refine ⟨q.map (·.1), ?_, ?_, ?_, ?_⟩
  · rw [List.pairwise_map]
    exact ha
  · intro i
    rw [observed_eq]
    have := hv i
    constructor
    · intro hi
      obtain ⟨e, he, rfl⟩ := List.mem_map.1 hi
      rw [mem_valueAt ha he] at this
      by_cases hl : (valueAt lms e.1).isSome = true
      · rw [if_pos hl] at this
        exact ⟨hl, by rw [← this]; rfl⟩
      · rw [if_neg hl] at this
        cases this
    · intro ⟨h1, h2⟩
      rw [if_pos h1] at this
      rw [← this] at h2
      obtain ⟨e, he, rfl⟩ := valueAt_some_mem h2
      exact List.mem_map.2 ⟨e, he, rfl⟩
  · rw [List.map_map, List.map_map]
    apply List.map_congr_left
    intro e he
    have := hv e.1
    rw [mem_valueAt ha he] at this
    simp only [Function.comp]
    rw [observed_eq]
    by_cases hl : (valueAt lms e.1).isSome = true
    · rw [if_pos hl] at this
      exact this
    · rw [if_neg hl] at this
      cases this
  · unfold landmarksOf
    rw [List.map_map]
    rfl

theorem optimizeLoop_ok (opt : C → List F → List (Option L) → Except E C) (lms : List (Int × L)) (m : List (Int × List (Int × F))) :
    ∀ (cams acc r : List (Int × C)), (∀ a ∈ acc, ∀ p ∈ cams, a.1 < p.1) → Ascending cams → optimizeLoop opt lms m acc cams = .ok r →
      ∃ r', r = acc ++ r' ∧ r'.length = cams.length ∧ ∀ (i : Nat) (p : Int × C), cams[i]? = some p → ∃ c, r'[i]? = some (p.1, c) ∧
        opt p.2 (((valueAt m p.1).getD []).map (·.2)) (landmarksOf lms ((valueAt m p.1).getD [])) = .ok c := by
  intro cams
  induction cams with
  | nil =>
    intro acc r _ _ h
    cases h
    exact ⟨[], by simp, rfl, by simp⟩
  | cons p l ih =>
    intro acc r hlt ha h
    obtain ⟨h1, h2⟩ := List.pairwise_cons.1 ha
    unfold optimizeLoop at h
    simp only at h
    cases hc : opt p.2 (((valueAt m p.1).getD []).map (·.2)) (landmarksOf lms ((valueAt m p.1).getD [])) with
    | error e => rw [hc] at h; cases h
    | ok c =>
      rw [hc] at h
      simp only at h
      rw [mapPut_last acc p.1 c (fun a haa => hlt a haa p (by simp))] at h
      obtain ⟨r', e, hl, hr⟩ := ih (acc ++ [(p.1, c)]) r (by
        intro a haa q hq
        rcases List.mem_append.1 haa with haa | haa
        · exact hlt a haa q (by simp [hq])
        · simp only [List.mem_singleton] at haa
          subst haa
          exact h1 q hq) h2 h
      refine ⟨(p.1, c) :: r', by rw [e]; simp, by simp [hl], ?_⟩
      intro i q hq
      cases i with
      | zero =>
        simp only [List.getElem?_cons_zero, Option.some.injEq] at hq
        subst hq
        exact ⟨c, by simp, hc⟩
      | succ i => exact hr i q (by simpa using hq)

theorem optimizeLoop_error (opt : C → List F → List (Option L) → Except E C) (lms : List (Int × L)) (m : List (Int × List (Int × F))) {e : E} :
    ∀ (cams acc : List (Int × C)), optimizeLoop opt lms m acc cams = .error e →
      ∃ p ∈ cams, opt p.2 (((valueAt m p.1).getD []).map (·.2)) (landmarksOf lms ((valueAt m p.1).getD [])) = .error e := by
  intro cams
  induction cams with
  | nil => intro acc h; cases h
  | cons p l ih =>
    intro acc h
    unfold optimizeLoop at h
    simp only at h
    cases hc : opt p.2 (((valueAt m p.1).getD []).map (·.2)) (landmarksOf lms ((valueAt m p.1).getD [])) with
    | error e' =>
      rw [hc] at h
      cases h
      exact ⟨p, by simp, hc⟩
    | ok c =>
      rw [hc] at h
      obtain ⟨q, hq, h⟩ := ih _ h
      exact ⟨q, by simp [hq], h⟩

/-- C114: each camera is optimized with exactly the corresponding features and landmarks of its frame, and the result has the same
    frames. -/
theorem C114_arguments (opt : C → List F → List (Option L) → Except E C) {cams : List (Int × C)} (ha : Ascending cams) (ts : List (Track (Option F) D))
    (lms : List (Int × L)) {out : Option (List (Int × C))} (h : optimize opt (some cams) (some ts) (some lms) = (.ok (), out)) :
    ∃ r, out = some r ∧ r.length = cams.length ∧ ∀ (i : Nat) (frame : Int) (c : C), cams[i]? = some (frame, c) →
      ∃ fs ls c', Corresponding ts lms frame fs ls ∧ opt c fs ls = .ok c' ∧ r[i]? = some (frame, c') := by
  unfold optimize at h
  simp only at h
  cases hl : optimizeLoop opt lms (ts.foldl (noteTrack cams lms) []) [] cams with
  | error e => rw [hl] at h; cases h
  | ok r =>
    rw [hl] at h
    obtain ⟨-, rfl⟩ := Prod.mk.inj h
    obtain ⟨r', e, hlen, hr⟩ := optimizeLoop_ok opt lms _ cams [] r (by simp) ha hl
    simp only [List.nil_append] at e
    subst e
    refine ⟨r, rfl, hlen, ?_⟩
    intro i frame c hi
    obtain ⟨c', h1, h2⟩ := hr i _ hi
    have hm : (frame, c) ∈ cams := List.mem_of_getElem? hi
    exact ⟨_, _, c', corresponding ts (by rw [mem_valueAt ha hm]; rfl), h2, h1⟩

/-- C114: it throws exactly for a null argument or when the implementation throws for one of the cameras, and then changes nothing. -/
theorem C114_throws (opt : C → List F → List (Option L) → Except E C) (cameras : Option (List (Int × C))) (tracks : Option (List (Track (Option F) D)))
    (landmarks : Option (List (Int × L))) :
    ((optimize opt cameras tracks landmarks).1 = .error .invalidValue ↔ cameras = none ∨ tracks = none ∨ landmarks = none) ∧
    ((optimize opt cameras tracks landmarks).1 ≠ .ok () → (optimize opt cameras tracks landmarks).2 = cameras) ∧
    (∀ e, (optimize opt cameras tracks landmarks).1 = .error (.impl e) → ∃ cams ts lms, cameras = some cams ∧ tracks = some ts ∧ landmarks = some lms ∧
      (Ascending cams → ∃ p ∈ cams, ∃ fs ls, Corresponding ts lms p.1 fs ls ∧ opt p.2 fs ls = .error e)) := by
  cases cameras with
  | none => exact ⟨by simp [optimize], by simp [optimize], by simp [optimize]⟩
  | some cams =>
    cases tracks with
    | none => exact ⟨by simp [optimize], by simp [optimize], by simp [optimize]⟩
    | some ts =>
      cases landmarks with
      | none => exact ⟨by simp [optimize], by simp [optimize], by simp [optimize]⟩
      | some lms =>
        unfold optimize
        simp only
        cases hl : optimizeLoop opt lms (ts.foldl (noteTrack cams lms) []) [] cams with
        | ok r => exact ⟨by simp, by simp, by simp⟩
        | error e =>
          refine ⟨by simp, by simp, ?_⟩
          intro e' he
          simp only [Except.error.injEq, OptErr.impl.injEq] at he
          subst he
          refine ⟨cams, ts, lms, rfl, rfl, rfl, fun ha => ?_⟩
          obtain ⟨p, hp, h⟩ := optimizeLoop_error opt lms _ cams [] hl
          exact ⟨p, hp, _, _, corresponding ts (by rw [mem_valueAt ha hp]; rfl), h⟩

/-- Two cameras, two tracks with a landmark and one without; the "optimizer" records its arguments. -/
example : optimize (E := Empty) (D := Unit) (fun (c : List Nat × List (Option Char)) (f : List Nat) (l : List (Option Char)) => .ok (c.1 ++ f, c.2 ++ l))
    (some [(1, ([], [])), (2, ([], []))])
    (some [⟨[⟨1, some 51, ()⟩, ⟨2, none, ()⟩], 5⟩, ⟨[⟨1, some 31, ()⟩, ⟨2, some 32, ()⟩, ⟨9, some 39, ()⟩], 3⟩, ⟨[⟨1, some 41, ()⟩], 4⟩])
    (some [(3, 'c'), (5, 'e')]) = (.ok (), some [(1, ([31, 51], [some 'c', some 'e'])), (2, ([32], [some 'c']))]) := by
  rfl

/-! ### filter_features -/

/-- `filter( feat, descr )`; `filt` is the virtual function, which returns the features kept and their indices. `none`: an index is
    read beyond the descriptors, which is undefined behaviour. -/
-- models: vital/algo/filter_features.cxx:64-84
def filterBoth (filt : List F → List F × List Nat) (feats : List F) (descs : List D) : Option (List F × List D) :=
  let r := filt feats
  match r.2.mapM (fun i => descs[i]?) with
  | none => none
  | some d => some (r.1, d)

-- models: vital/algo/filter_features.cxx:54-61
def filterFeatures (filt : List F → List F × List Nat) (feats : List F) : List F := (filt feats).1

theorem mapM_some {α β : Type} {f : α → Option β} : ∀ {l : List α} {r : List β}, l.mapM f = some r ↔ l.map f = r.map some := by
  intro l
  induction l with
  | nil => intro r; cases r <;> simp
  | cons a l ih =>
    intro r
    rw [List.mapM_cons]
    cases hf : f a with
    | none => cases r <;> simp [hf]
    | some b =>
      cases hm : l.mapM f with
      | none =>
        cases r with
        | nil => simp
        | cons c r =>
          simp [hf]
          intro _ h
          rw [ih.2 h] at hm
          cases hm
      | some q =>
        have := ih.1 hm
        cases r with
        | nil => simp
        | cons c r =>
          simp [hf, this]
          intro _
          exact ⟨fun h => by rw [h], fun h => map_some_inj h⟩

theorem mapM_isSome {α β : Type} {f : α → Option β} {l : List α} : (l.mapM f).isSome = true ↔ ∀ a ∈ l, (f a).isSome = true := by
  induction l with
  | nil => simp
  | cons a l ih =>
    rw [List.mapM_cons]
    cases hf : f a with
    | none => simp [hf]
    | some b =>
      cases hm : l.mapM f with
      | none =>
        rw [hm] at ih
        simp [hf]
        simpa using ih
      | some q =>
        rw [hm] at ih
        simp [hf]
        simpa using ih

/-- C115: when every index the filter reports is that of the feature kept (in `k`-th place the feature with the `k`-th index) and there are as many
    descriptors as features, the features and descriptors returned belong together; the call is defined exactly when
    all indices are below the number of descriptors. -/
theorem C115_filter (filt : List F → List F × List Nat) (feats : List F) (descs : List D) :
    ((filterBoth filt feats descs).isSome = true ↔ ∀ i ∈ (filt feats).2, i < descs.length) ∧
    ∀ r, filterBoth filt feats descs = some r → r.1 = filterFeatures filt feats ∧ r.2.length = (filt feats).2.length ∧
      ((filt feats).1.map some = (filt feats).2.map (fun i => feats[i]?) →
        (r.1.zip r.2).map some = (filt feats).2.map (fun i => (feats.zip descs)[i]?)) := by
  unfold filterBoth
  simp only
  constructor
  · have := mapM_isSome (f := fun i : Nat => descs[i]?) (l := (filt feats).2)
    cases hm : (filt feats).2.mapM (fun i => descs[i]?) with
    | none =>
      rw [hm] at this
      constructor
      · intro h; cases h
      · intro h
        exfalso
        have := this.2 (fun i hi => by simpa using h i hi)
        cases this
    | some d =>
      rw [hm] at this
      simp only [Option.isSome_some, true_iff] at this ⊢
      intro i hi
      simpa using this i hi
  · intro r hr
    cases hm : (filt feats).2.mapM (fun i => descs[i]?) with
    | none => rw [hm] at hr; cases hr
    | some d =>
      rw [hm] at hr
      simp only [Option.some.injEq] at hr
      subst hr
      have hd := mapM_some.1 hm
      have hlen : d.length = (filt feats).2.length := by
        have := congrArg List.length hd
        simpa using this.symm
      refine ⟨rfl, hlen, ?_⟩
      intro hf
      generalize (filt feats).1 = fs at *
      generalize (filt feats).2 = idx at *
      clear hm
      induction idx generalizing fs d with
      | nil =>
        have : fs = [] := by simpa using hf
        subst this
        rfl
      | cons i idx ih =>
        cases fs with
        | nil => simp at hf
        | cons x fs =>
          cases d with
          | nil => simp at hlen
          | cons y d =>
            simp only [List.map_cons, List.cons.injEq] at hf hd
            simp only [List.zip_cons_cons, List.map_cons]
            rw [ih d fs hd.2 (by simpa using hlen) hf.2]
            congr 1
            exact (List.getElem?_zip_eq_some (z := (x, y))).2 ⟨hf.1.symm, hd.1⟩ |>.symm

/-- A filter that keeps two of three features. -/
example : filterBoth (fun f : List Nat => ((f.drop 1).reverse, [2, 1])) [10, 20, 30] ['a', 'b', 'c'] = some ([30, 20], ['c', 'b']) := by
  decide

/-! ### estimate_essential_matrix, estimate_fundamental_matrix, estimate_homography -/

/-- The locations of the matched features. A feature is its location, or a null pointer; `none`: a null pointer or an
    index beyond the features is used, which is undefined behaviour. -/
-- models: vital/algo/estimate_homography.cxx:64-75, vital/algo/estimate_fundamental_matrix.cxx:65-76, vital/algo/estimate_essential_matrix.cxx:69-79
def matchPoints {P : Type} (f1 f2 : List (Option P)) : List (Nat × Nat) → List P → List P → Option (List P × List P)
  | [], v1, v2 => some (v1, v2)
  | m :: l, v1, v2 =>
    match f1[m.1]?.join, f2[m.2]?.join with
    | some a, some b => matchPoints f1 f2 l (v1 ++ [a]) (v2 ++ [b])
    | _, _ => none

/-- The overload for feature sets; `est` is the virtual function on points. -/
-- models: vital/algo/estimate_homography.cxx:57-76, vital/algo/estimate_fundamental_matrix.cxx:58-77, vital/algo/estimate_essential_matrix.cxx:60-81
def estimateMatches {P S : Type} (est : List P → List P → S) (f1 f2 : List (Option P)) (ms : List (Nat × Nat)) : Option S :=
  (matchPoints f1 f2 ms [] []).map (fun v => est v.1 v.2)

theorem matchPoints_spec {P : Type} (f1 f2 : List (Option P)) : ∀ (ms : List (Nat × Nat)) (v1 v2 : List P),
    match matchPoints f1 f2 ms v1 v2 with
    | some r => ∃ q1 q2 : List P, r = (v1 ++ q1, v2 ++ q2) ∧ q1.map some = ms.map (fun m => f1[m.1]?.join) ∧ q2.map some = ms.map (fun m => f2[m.2]?.join)
    | none => ∃ m ∈ ms, f1[m.1]?.join = none ∨ f2[m.2]?.join = none := by
  intro ms
  induction ms with
  | nil => intro v1 v2; exact ⟨[], [], by simp, rfl, rfl⟩
  | cons m l ih =>
    intro v1 v2
    unfold matchPoints
    cases h1 : f1[m.1]?.join with
    | none => exact ⟨m, by simp, .inl h1⟩
    | some a =>
      cases h2 : f2[m.2]?.join with
      | none => exact ⟨m, by simp, .inr h2⟩
      | some b =>
        have := ih (v1 ++ [a]) (v2 ++ [b])
        simp only
        cases hm : matchPoints f1 f2 l (v1 ++ [a]) (v2 ++ [b]) with
        | none =>
          rw [hm] at this
          obtain ⟨x, hx, h⟩ := this
          exact ⟨x, by simp [hx], h⟩
        | some r =>
          rw [hm] at this
          obtain ⟨q1, q2, e, e1, e2⟩ := this
          exact ⟨a :: q1, b :: q2, by rw [e]; simp, by simp [e1, h1], by simp [e2, h2]⟩

/-- C116: the points given to the estimator are the locations of the matched features, one pair per match in the order of the matches; the
    call is defined exactly when each match names existing features. -/
theorem C116_matches {P S : Type} (est : List P → List P → S) (f1 f2 : List (Option P)) (ms : List (Nat × Nat)) :
    ((estimateMatches est f1 f2 ms).isSome = true ↔ ∀ m ∈ ms, (∃ a, f1[m.1]? = some (some a)) ∧ ∃ b, f2[m.2]? = some (some b)) ∧
    ∀ r, estimateMatches est f1 f2 ms = some r → ∃ v1 v2, r = est v1 v2 ∧ v1.length = ms.length ∧ v2.length = ms.length ∧
      ∀ (i j k : Nat), ms[i]? = some (j, k) → ∃ a b, v1[i]? = some a ∧ v2[i]? = some b ∧ f1[j]? = some (some a) ∧ f2[k]? = some (some b) := by
  have hspec := matchPoints_spec f1 f2 ms [] []
  have hj : ∀ (f : List (Option P)) (i : Nat) (a : P), f[i]?.join = some a ↔ f[i]? = some (some a) := by
    intro f i a
    simp [Option.join_eq_some_iff]
  unfold estimateMatches
  cases hm : matchPoints f1 f2 ms [] [] with
  | none =>
    rw [hm] at hspec
    refine ⟨⟨fun h => (by cases h), fun h => ?_⟩, fun r hr => (by cases hr)⟩
    exfalso
    obtain ⟨m, hmem, hn⟩ := hspec
    obtain ⟨⟨a, ha⟩, ⟨b, hb⟩⟩ := h m hmem
    rw [ha, hb] at hn
    rcases hn with h | h <;> cases h
  | some r =>
    rw [hm] at hspec
    obtain ⟨q1, q2, rfl, e1, e2⟩ := hspec
    have key : ∀ (i j k : Nat), ms[i]? = some (j, k) → ∃ a b, q1[i]? = some a ∧ q2[i]? = some b ∧ f1[j]? = some (some a) ∧ f2[k]? = some (some b) := by
      intro i j k hi
      have a1 := congrArg (·[i]?) e1
      have a2 := congrArg (·[i]?) e2
      simp only [List.getElem?_map, hi, Option.map_some] at a1 a2
      obtain ⟨a, h1, h1'⟩ := Option.map_eq_some_iff.1 a1
      obtain ⟨b, h2, h2'⟩ := Option.map_eq_some_iff.1 a2
      exact ⟨a, b, h1, h2, (hj _ _ _).1 h1'.symm, (hj _ _ _).1 h2'.symm⟩
    constructor
    · simp only [Option.map_some, Option.isSome_some, true_iff]
      intro m hmem
      obtain ⟨i, hi⟩ := List.mem_iff_getElem?.1 hmem
      obtain ⟨a, b, -, -, h1, h2⟩ := key i m.1 m.2 hi
      exact ⟨⟨a, h1⟩, ⟨b, h2⟩⟩
    · intro r hr
      simp only [Option.map_some, Option.some.injEq] at hr
      refine ⟨q1, q2, by rw [← hr]; simp, ?_, ?_, key⟩
      · simpa using congrArg List.length e1
      · simpa using congrArg List.length e2

/-- Matches that use features in any order, and one out of range. -/
example : estimateMatches (fun a b : List Nat => (a, b)) [some 1, some 2, none] [some 10, some 20] [(1, 0), (0, 1), (1, 1)] = some ([2, 1, 2], [10, 20, 20]) ∧
    estimateMatches (fun a b : List Nat => (a, b)) [some 1, some 2, none] [some 10, some 20] [(2, 0)] = none := by
  decide

end Vital.Wrap
