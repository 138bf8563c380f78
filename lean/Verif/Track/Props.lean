import Verif.Track.Model
/- Properties C33–C37 and C64–C68 of tracks and track sets. -/
namespace Vital.Track
open Vital

variable {F D : Type}

/-- Frame numbers strictly increase along the track. -/
def Ordered (t : Track F D) : Prop := t.history.Pairwise (fun a b => a.frame < b.frame)

/-- The track has a state on frame `f`. -/
def HasFrame (t : Track F D) (f : Int) : Prop := ∃ s ∈ t.history, s.frame = f

/-! ### Helper lemmas -/

theorem last_is_max {l : List (State F D)} (h : l.Pairwise (fun a b => a.frame < b.frame)) {s : State F D}
    (hl : l.getLast? = some s) : ∀ x ∈ l, x.frame ≤ s.frame := by
  induction l with
  | nil => simp at hl
  | cons a l ih =>
    intro x hx
    have hp := List.pairwise_cons.1 h
    cases l with
    | nil =>
      simp at hl hx; subst hl; subst hx; exact Int.le_refl _
    | cons b l =>
      rw [List.getLast?_cons_cons] at hl
      rcases List.mem_cons.1 hx with rfl | hx
      · have hs : s ∈ b :: l := List.mem_of_mem_getLast? hl
        exact Int.le_of_lt (hp.1 s hs)
      · exact ih hp.2 hl x hx

theorem first_is_min {s : State F D} {l : List (State F D)}
    (h : (s :: l).Pairwise (fun a b => a.frame < b.frame)) : ∀ x ∈ s :: l, s.frame ≤ x.frame := by
  intro x hx
  rcases List.mem_cons.1 hx with rfl | hx
  · exact Int.le_refl _
  · exact Int.le_of_lt ((List.pairwise_cons.1 h).1 x hx)

theorem lastFrame_of_last {t : Track F D} {s : State F D} (h : t.history.getLast? = some s) :
    lastFrame t = s.frame := by unfold lastFrame; rw [h]

theorem last_exists {t : Track F D} (h : t.history ≠ []) :
    ∃ s, t.history.getLast? = some s ∧ s ∈ t.history := by
  refine ⟨t.history.getLast h, List.getLast?_eq_some_getLast h, List.getLast_mem h⟩

theorem appendState_ordered {t : Track F D} (h : Ordered t) (s : State F D) : Ordered (appendState t s).1 := by
  unfold appendState
  split
  · exact h
  · rename_i hc
    show List.Pairwise _ (t.history ++ [s])
    rw [List.pairwise_append]
    refine ⟨h, by simp, ?_⟩
    intro a ha b hb
    simp at hb; subst hb
    have hne : t.history ≠ [] := List.ne_nil_of_mem ha
    obtain ⟨z, hz, _⟩ := last_exists hne
    have hle := last_is_max h hz a ha
    have hlt : lastFrame t < b.frame := by
      simp only [ge_iff_le, Bool.and_eq_true, Bool.not_eq_true', List.isEmpty_eq_false_iff,
        decide_eq_true_eq, not_and, Int.not_le] at hc
      exact hc hne
    rw [lastFrame_of_last hz] at hlt
    omega

theorem appendTrack_ordered {t u : Track F D} (h : Ordered t) (hu : Ordered u) : Ordered (appendTrack t u).1 := by
  unfold appendTrack
  split
  · exact h
  · rename_i hc
    show List.Pairwise _ (t.history ++ u.history)
    rw [List.pairwise_append]
    refine ⟨h, hu, ?_⟩
    intro a ha b hb
    have hne : t.history ≠ [] := List.ne_nil_of_mem ha
    have hne' : u.history ≠ [] := List.ne_nil_of_mem hb
    obtain ⟨z, hz, _⟩ := last_exists hne
    have hle := last_is_max h hz a ha
    have hlt : lastFrame t < firstFrame u := by
      simp only [ge_iff_le, Bool.and_eq_true, Bool.not_eq_true', List.isEmpty_eq_false_iff,
        decide_eq_true_eq, not_and, Int.not_le, and_imp] at hc
      exact hc hne hne'
    rw [lastFrame_of_last hz] at hlt
    have : firstFrame u ≤ b.frame := by
      unfold firstFrame
      unfold Ordered at hu
      cases hh : u.history with
      | nil => exact absurd hh hne'
      | cons c l => rw [hh] at hu hb; exact first_is_min hu b hb
    omega

/-! ### C33 -/

/-- Every track built through the API has strictly increasing frame numbers. -/
theorem C33_ordered {t : Track F D} (h : Built t) : Ordered t := by
  induction h with
  | empty => simp [Ordered, mkEmpty]
  | single s => simp [Ordered, mkSingle]
  | copy _ ih => exact ih
  | setId _ _ ih => exact ih
  | appendState s _ ih => exact appendState_ordered ih s
  | appendTrack _ _ ih1 ih2 => exact appendTrack_ordered ih1 ih2

/-- `append` is refused exactly when it would break the order, and then changes nothing; when accepted
    the states are added at the end. -/
theorem C33_append_state {t : Track F D} (h : Built t) (s : State F D) :
    ((appendState t s).2 = true ↔ ∀ x ∈ t.history, x.frame < s.frame) ∧
    ((appendState t s).2 = false → (appendState t s).1 = t) ∧
    ((appendState t s).2 = true → (appendState t s).1.history = t.history ++ [s]) := by
  have ho := C33_ordered h
  unfold appendState
  by_cases hne : t.history = []
  · simp [hne]
  · obtain ⟨z, hz, hzm⟩ := last_exists hne
    rw [lastFrame_of_last hz]
    by_cases hlt : z.frame < s.frame
    · have : ∀ x ∈ t.history, x.frame < s.frame := fun x hx => by
        have := last_is_max ho hz x hx; omega
      have hng : ¬ z.frame ≥ s.frame := by omega
      simp [hng]
      exact this
    · have hge : z.frame ≥ s.frame := by omega
      simp only [List.isEmpty_eq_false_iff.2 hne, Bool.not_false, hge, decide_true, Bool.and_self, ↓reduceIte,
        Bool.false_eq_true, false_iff, implies_true, and_true, false_implies]
      exact fun hall => hlt (hall z hzm)

/-- The same for appending a whole track. -/
theorem C33_append_track {t u : Track F D} (h : Built t) (hu : Built u) :
    ((appendTrack t u).2 = true ↔ ∀ x ∈ t.history, ∀ y ∈ u.history, x.frame < y.frame) ∧
    ((appendTrack t u).2 = false → (appendTrack t u).1 = t) ∧
    ((appendTrack t u).2 = true → (appendTrack t u).1.history = t.history ++ u.history) := by
  have ho := C33_ordered h
  have hou := C33_ordered hu
  unfold appendTrack
  by_cases hne : t.history = []
  · simp [hne]
  · by_cases hne' : u.history = []
    · simp [hne']
    · obtain ⟨z, hz, hzm⟩ := last_exists hne
      rw [lastFrame_of_last hz]
      obtain ⟨y, l, hyl⟩ : ∃ y l, u.history = y :: l := by
        cases hh : u.history with
        | nil => exact absurd hh hne'
        | cons y l => exact ⟨y, l, rfl⟩
      have hff : firstFrame u = y.frame := by unfold firstFrame; rw [hyl]
      rw [hff]
      unfold Ordered at hou
      rw [hyl] at hou
      have e1 : t.history.isEmpty = false := List.isEmpty_eq_false_iff.2 hne
      have e2 : u.history.isEmpty = false := List.isEmpty_eq_false_iff.2 hne'
      by_cases hlt : z.frame < y.frame
      · have : ∀ x ∈ t.history, ∀ y ∈ u.history, x.frame < y.frame := fun x hx w hw => by
          have h1 := last_is_max ho hz x hx
          have h2 := first_is_min hou w (hyl ▸ hw)
          omega
        have hng : ¬ z.frame ≥ y.frame := by omega
        simp only [e1, e2, hng, decide_false, Bool.and_false, Bool.false_eq_true, ↓reduceIte, true_iff,
          Bool.true_eq_false, false_implies, implies_true, and_true]
        exact this
      · have hge : z.frame ≥ y.frame := by omega
        simp only [e1, e2, hge, decide_true, Bool.not_false, Bool.and_self, ↓reduceIte, Bool.false_eq_true,
          false_iff, implies_true, and_true, false_implies]
        exact fun hall => hlt (hall z hzm y (by rw [hyl]; simp))

/-! ### C34 -/

theorem lowerBound_spec (h : List (State F D)) (f : Int) (ho : h.Pairwise (fun a b => a.frame < b.frame)) :
    ∀ fuel first len, len < fuel → first + len ≤ h.length →
      (∀ i s, i < first → h[i]? = some s → s.frame < f) →
      (∀ i s, first + len ≤ i → h[i]? = some s → ¬ s.frame < f) →
      let r := lowerBound h f fuel first len
      (∀ i s, i < r → h[i]? = some s → s.frame < f) ∧ (∀ i s, r ≤ i → h[i]? = some s → ¬ s.frame < f) := by
  intro fuel
  induction fuel with
  | zero => intro first len hl; omega
  | succ fuel ih =>
    intro first len hl hlen h1 h2
    unfold lowerBound
    by_cases h0 : len = 0
    · subst h0
      simp only [↓reduceIte]
      exact ⟨h1, fun i s hi hs => h2 i s (by omega) hs⟩
    · rw [if_neg h0]
      have hmid : first + len / 2 < h.length := by omega
      simp only [List.getElem?_eq_getElem hmid]
      have mono : ∀ (i j : Nat) (s t : State F D), i < j → h[i]? = some s → h[j]? = some t → s.frame < t.frame := by
        intro i j s t hij hs ht
        obtain ⟨hi, rfl⟩ := List.getElem?_eq_some_iff.1 hs
        obtain ⟨hj, rfl⟩ := List.getElem?_eq_some_iff.1 ht
        exact List.pairwise_iff_getElem.1 ho i j hi hj hij
      have hm : h[first + len / 2]? = some h[first + len / 2] := List.getElem?_eq_getElem hmid
      split
      · rename_i hlt
        apply ih _ _ (by omega) (by omega)
        · intro i s hi hs
          rcases Nat.lt_or_ge i (first + len / 2) with hi' | hi'
          · have := mono _ _ _ _ hi' hs hm; omega
          · have : i = first + len / 2 := by omega
            subst this; rw [hm] at hs; cases hs; exact hlt
        · intro i s hi hs; exact h2 i s (by omega) hs
      · rename_i hlt
        apply ih _ _ (by omega) (by omega) h1
        intro i s hi hs
        rcases Nat.lt_or_ge (first + len / 2) i with hi' | hi'
        · have := mono _ _ _ _ hi' hm hs; omega
        · have : i = first + len / 2 := by omega
          subst this; rw [hm] at hs; cases hs; exact hlt

/-- `find(f)` returns an iterator to the state on frame `f` when there is one and `end()` otherwise. -/
theorem C34_find_exact {t : Track F D} (h : Built t) (f : Int) :
    (∀ i, find t f = some i → ∃ s, t.history[i]? = some s ∧ s.frame = f) ∧
    (find t f = none ↔ ¬ HasFrame t f) := by
  have ho := C33_ordered h
  have spec := lowerBound_spec t.history f ho (t.history.length + 1) 0 t.history.length (by omega) (by omega)
    (by omega) (by
      intro i s hi hs
      have := (List.getElem?_eq_some_iff.1 hs).1
      omega)
  simp only at spec
  unfold find
  generalize hr : lowerBound t.history f (t.history.length + 1) 0 t.history.length = r at *
  by_cases hrange : f < firstFrame t ∨ f > lastFrame t
  · rw [if_pos hrange]
    refine ⟨by simp, ?_⟩
    simp only [true_iff]
    rintro ⟨s, hs, hsf⟩
    have hne : t.history ≠ [] := List.ne_nil_of_mem hs
    obtain ⟨z, hz, _⟩ := last_exists hne
    have h1 := last_is_max ho hz s hs
    have h2 : firstFrame t ≤ s.frame := by
      unfold firstFrame
      unfold Ordered at ho
      cases hh : t.history with
      | nil => exact absurd hh hne
      | cons c l => rw [hh] at ho hs; exact first_is_min ho s hs
    rw [lastFrame_of_last hz] at hrange
    omega
  · rw [if_neg hrange]
    simp only
    cases hx : t.history[r]? with
    | none =>
      refine ⟨by simp, ?_⟩
      simp only [true_iff]
      rintro ⟨s, hs, hsf⟩
      obtain ⟨i, hi⟩ := List.mem_iff_getElem?.1 hs
      have hlt := (List.getElem?_eq_some_iff.1 hi).1
      have hge := List.getElem?_eq_none_iff.1 hx
      have := spec.1 i s (by omega) hi
      omega
    | some s =>
      simp only
      by_cases hsf : s.frame = f
      · rw [if_pos hsf]
        refine ⟨fun i hi => ?_, ?_⟩
        · cases hi; exact ⟨s, hx, hsf⟩
        · simp only [reduceCtorEq, false_iff, Classical.not_not]
          exact ⟨s, List.mem_of_getElem? hx, hsf⟩
      · rw [if_neg hsf]
        refine ⟨by simp, ?_⟩
        simp only [true_iff]
        rintro ⟨q, hq, hqf⟩
        obtain ⟨i, hi⟩ := List.mem_iff_getElem?.1 hq
        rcases Nat.lt_or_ge i r with hlt | hge
        · have := spec.1 i q hlt hi; omega
        · rcases Nat.eq_or_lt_of_le hge with he | hlt
          · subst he; rw [hx] at hi; cases hi; exact hsf hqf
          · have h3 := spec.2 r s (Nat.le_refl _) hx
            obtain ⟨hri, rfl⟩ := List.getElem?_eq_some_iff.1 hx
            obtain ⟨hii, rfl⟩ := List.getElem?_eq_some_iff.1 hi
            have := List.pairwise_iff_getElem.1 ho r i hri hii hlt
            omega

theorem find_isSome_iff {t : Track F D} (h : Built t) (f : Int) : (find t f).isSome = true ↔ HasFrame t f := by
  have := (C34_find_exact h f).2
  cases hf : find t f with
  | none => simpa using this.1 hf
  | some i =>
    simp only [Option.isSome_some, true_iff]
    refine Classical.byContradiction fun hn => ?_
    have := this.2 hn
    rw [hf] at this; cases this

def demoTrack : Track Nat Nat :=
  (appendState (appendState (mkSingle ⟨3, 30, 0⟩) ⟨5, 50, 1⟩).1 ⟨9, 90, 2⟩).1

theorem demoTrack_built : Built demoTrack := .appendState _ (.appendState _ (.single _))

example : Built demoTrack ∧ find demoTrack 5 = some 1 ∧ find demoTrack 4 = none ∧
    (appendState demoTrack ⟨9, 1, 1⟩).2 = false ∧ (appendTrack demoTrack demoTrack).2 = false := by
  refine ⟨demoTrack_built, ?_, ?_, ?_, ?_⟩ <;> decide +kernel

/-! ### C35 -/

/-- The frame that an offset designates according to the documentation: non-negative offsets are frame
    numbers, `-1` is the last frame, `-2` the one before, …; offsets that reach before frame 0 designate
    (by the code) the frame after the last one, on which no track has a state. -/
def Designates (ts : TrackSet F D) (offset f : Int) : Prop :=
  (0 ≤ offset ∧ f = offset) ∨
  (offset < 0 ∧ -offset ≤ setLastFrame ts + 1 ∧ f = setLastFrame ts + 1 + offset) ∨
  (offset < 0 ∧ ¬ -offset ≤ setLastFrame ts + 1 ∧ f = setLastFrame ts + 1)

/-- Frame numbers are 64-bit and the arithmetic of `offset_to_frame` does not overflow. -/
def OffsetOk (ts : TrackSet F D) (offset : Int) : Prop := setLastFrame ts < int64Max ∧ int64Min < offset

theorem offset_designates {ts : TrackSet F D} {offset : Int} (h : OffsetOk ts offset) :
    ∃ f, offsetToFrame ts offset = some f ∧ Designates ts offset f := by
  unfold offsetToFrame
  split
  · exact ⟨_, rfl, Or.inl ⟨by omega, rfl⟩⟩
  · rw [if_neg (by unfold OffsetOk at h; omega)]
    simp only
    split
    · exact ⟨_, rfl, Or.inr (Or.inl ⟨by omega, by assumption, rfl⟩)⟩
    · exact ⟨_, rfl, Or.inr (Or.inr ⟨by omega, by assumption, rfl⟩)⟩

/-- Outside those bounds the arithmetic overflows: exactly for negative offsets, when the last frame is the largest number or the offset is the smallest. -/
theorem C35_overflow {ts : TrackSet F D} {offset : Int} (h1 : setLastFrame ts ≤ int64Max) (h2 : int64Min ≤ offset) :
    (activeTracks ts offset = none ↔ offset < 0 ∧ (setLastFrame ts = 9223372036854775807 ∨ offset = -9223372036854775808)) ∧
    (inactiveTracks ts offset = none ↔ offset < 0 ∧ (setLastFrame ts = 9223372036854775807 ∨ offset = -9223372036854775808)) := by
  have key : offsetToFrame ts offset = none ↔ offset < 0 ∧ (setLastFrame ts = 9223372036854775807 ∨ offset = -9223372036854775808) := by
    unfold offsetToFrame int64Max int64Min at *
    split
    · simp; omega
    · split
      · simp; omega
      · simp only; split <;> simp <;> omega
  unfold activeTracks inactiveTracks
  constructor
  · rw [← key]; cases offsetToFrame ts offset <;> simp
  · rw [← key]; cases offsetToFrame ts offset <;> simp

/-- Active and inactive tracks split the set in order: the active ones are exactly those with a state
    on the designated frame. -/
theorem C35_partition {ts : TrackSet F D} (hb : ∀ t ∈ ts, Built t) {offset : Int} (ho : OffsetOk ts offset) :
    ∃ f act inact, Designates ts offset f ∧ activeTracks ts offset = some act ∧
      inactiveTracks ts offset = some inact ∧ act.Sublist ts ∧ inact.Sublist ts ∧
      (∀ t ∈ ts, HasFrame t f ↔ t ∈ act) ∧ (∀ t ∈ ts, ¬ HasFrame t f ↔ t ∈ inact) ∧
      act.length + inact.length = ts.length := by
  obtain ⟨f, e, hd⟩ := offset_designates ho
  refine ⟨f, ts.filter (fun t => (find t f).isSome), ts.filter (fun t => (find t f).isNone), hd,
    by simp only [activeTracks, e], by simp only [inactiveTracks, e], List.filter_sublist,
    List.filter_sublist, ?_, ?_, ?_⟩
  · intro t ht; rw [List.mem_filter, find_isSome_iff (hb t ht)]; simp [ht]
  · intro t ht
    rw [List.mem_filter, ← find_isSome_iff (hb t ht)]
    cases find t f <;> simp [ht]
  · clear hb ho e hd
    induction ts with
    | nil => rfl
    | cons t ts ih => cases h : find t f <;> simp [h] <;> omega

example : OffsetOk [demoTrack, mkSingle ⟨7, 1, 1⟩] (-1) ∧
    Designates [demoTrack, mkSingle ⟨7, 1, 1⟩] (-3) 7 ∧
    (activeTracks [demoTrack, mkSingle ⟨7, 1, 1⟩] (-3)).map List.length = some 1 := by
  refine ⟨by unfold OffsetOk; decide +kernel, ?_, by decide +kernel⟩
  right; left; decide +kernel

/-! ### C36 / C37 -/

theorem foldl_last (ts : TrackSet F D) : ∀ a : Int,
    let r := ts.foldl (fun last t => if lastFrame t > last then lastFrame t else last) a
    a ≤ r ∧ (∀ t ∈ ts, lastFrame t ≤ r) ∧ (r = a ∨ ∃ t ∈ ts, r = lastFrame t) := by
  induction ts with
  | nil => intro a; simp
  | cons t ts ih =>
    intro a
    simp only [List.foldl_cons]
    obtain ⟨h1, h2, h3⟩ := ih (if lastFrame t > a then lastFrame t else a)
    refine ⟨?_, ?_, ?_⟩
    · clear h2 h3; revert h1; generalize List.foldl _ _ ts = q; split <;> (intro h1; omega)
    · intro u hu
      rcases List.mem_cons.1 hu with rfl | hu
      · clear h2 h3; revert h1; generalize List.foldl _ _ ts = q; split <;> (intro h1; omega)
      · exact h2 u hu
    · rcases h3 with h3 | ⟨u, hu, h3⟩
      · by_cases hc : lastFrame t > a
        · right; rw [if_pos hc] at h3; exact ⟨t, by simp, by rw [if_pos hc]; exact h3⟩
        · left; rw [if_neg hc] at h3; rw [if_neg hc]; exact h3
      · right; exact ⟨u, by simp [hu], h3⟩

theorem foldl_first (ts : TrackSet F D) : ∀ a : Int,
    let r := ts.foldl (fun first t => if firstFrame t < first then firstFrame t else first) a
    r ≤ a ∧ (∀ t ∈ ts, r ≤ firstFrame t) ∧ (r = a ∨ ∃ t ∈ ts, r = firstFrame t) := by
  induction ts with
  | nil => intro a; simp
  | cons t ts ih =>
    intro a
    simp only [List.foldl_cons]
    obtain ⟨h1, h2, h3⟩ := ih (if firstFrame t < a then firstFrame t else a)
    refine ⟨?_, ?_, ?_⟩
    · clear h2 h3; revert h1; generalize List.foldl _ _ ts = q; split <;> (intro h1; omega)
    · intro u hu
      rcases List.mem_cons.1 hu with rfl | hu
      · clear h2 h3; revert h1; generalize List.foldl _ _ ts = q; split <;> (intro h1; omega)
      · exact h2 u hu
    · rcases h3 with h3 | ⟨u, hu, h3⟩
      · by_cases hc : firstFrame t < a
        · right; rw [if_pos hc] at h3; exact ⟨t, by simp, by rw [if_pos hc]; exact h3⟩
        · left; rw [if_neg hc] at h3; rw [if_neg hc]; exact h3
      · right; exact ⟨u, by simp [hu], h3⟩

/-- `m` is the smallest frame number of a state in the set. -/
def IsSmallestFrame (ts : TrackSet F D) (m : Int) : Prop :=
  (∃ t ∈ ts, HasFrame t m) ∧ ∀ t ∈ ts, ∀ f, HasFrame t f → m ≤ f

/-- `m` is the largest frame number of a state in the set. -/
def IsLargestFrame (ts : TrackSet F D) (m : Int) : Prop :=
  (∃ t ∈ ts, HasFrame t m) ∧ ∀ t ∈ ts, ∀ f, HasFrame t f → f ≤ m

def C36_statement : Prop := ∀ (ts : TrackSet Nat Nat), (∀ t ∈ ts, Built t) → (∃ t ∈ ts, t.history ≠ []) →
  IsSmallestFrame ts (setFirstFrame ts)

/-- C36 is false of the code: the running minimum starts at 0, so a set whose frames are all positive
    reports first frame 0. -/
theorem C36_refuted : ¬ C36_statement := by
  intro h
  obtain ⟨⟨t, ht, s, hs, hf⟩, _⟩ := h [mkSingle ⟨5, 0, 0⟩] (by intro t ht; simp at ht; subst ht; exact .single _)
    ⟨_, List.mem_singleton.2 rfl, by simp [mkSingle]⟩
  simp at ht; subst ht
  simp [mkSingle] at hs; subst hs
  revert hf; decide

theorem firstFrame_min {t : Track F D} (h : Built t) {f : Int} (hf : HasFrame t f) :
    HasFrame t (firstFrame t) ∧ firstFrame t ≤ f := by
  obtain ⟨s, hs, rfl⟩ := hf
  have ho := C33_ordered h
  unfold Ordered at ho
  unfold firstFrame HasFrame
  cases hh : t.history with
  | nil => rw [hh] at hs; simp at hs
  | cons c l => rw [hh] at ho hs; exact ⟨⟨c, by simp, rfl⟩, first_is_min ho s hs⟩

theorem lastFrame_max {t : Track F D} (h : Built t) {f : Int} (hf : HasFrame t f) :
    HasFrame t (lastFrame t) ∧ f ≤ lastFrame t := by
  obtain ⟨s, hs, rfl⟩ := hf
  have ho := C33_ordered h
  obtain ⟨z, hz, hzm⟩ := last_exists (List.ne_nil_of_mem hs)
  rw [lastFrame_of_last hz]
  exact ⟨⟨z, hzm, rfl⟩, last_is_max ho hz s hs⟩

/-- What holds: `first_frame()` is a lower bound of all frame numbers, never above 0, and it is the
    smallest frame number whenever some frame number is not positive and there are no empty tracks.
    Missing: sets whose frames are all positive (there it returns 0). -/
theorem C36_partial {ts : TrackSet F D} (hb : ∀ t ∈ ts, Built t) :
    (∀ t ∈ ts, ∀ f, HasFrame t f → setFirstFrame ts ≤ f) ∧ setFirstFrame ts ≤ 0 ∧
    ((∀ t ∈ ts, t.history ≠ []) → (∃ t ∈ ts, ∃ f, HasFrame t f ∧ f ≤ 0) → IsSmallestFrame ts (setFirstFrame ts)) ∧
    ((∀ t ∈ ts, ∀ f, HasFrame t f → 0 ≤ f) → (∀ t ∈ ts, t.history ≠ []) → setFirstFrame ts = 0) := by
  obtain ⟨h1, h2, h3⟩ := foldl_first ts 0
  change setFirstFrame ts ≤ 0 at h1
  have h2 : ∀ t ∈ ts, setFirstFrame ts ≤ firstFrame t := h2
  change setFirstFrame ts = 0 ∨ _ at h3
  have lb : ∀ t ∈ ts, ∀ f, HasFrame t f → setFirstFrame ts ≤ f := fun t ht f hf => by
    have := (firstFrame_min (hb t ht) hf).2
    have := h2 t ht
    omega
  have hff : ∀ t ∈ ts, t.history ≠ [] → HasFrame t (firstFrame t) := by
    intro t ht hne
    obtain ⟨s, _, hs⟩ := last_exists hne
    exact (firstFrame_min (hb t ht) ⟨s, hs, rfl⟩).1
  refine ⟨lb, h1, ?_, ?_⟩
  · rintro hne ⟨t, ht, f, hf, hf0⟩
    refine ⟨?_, lb⟩
    rcases h3 with h3 | ⟨u, hu, h3⟩
    · have := lb t ht f hf
      have : f = setFirstFrame ts := by omega
      exact ⟨t, ht, this ▸ hf⟩
    · exact ⟨u, hu, (show setFirstFrame ts = firstFrame u from h3) ▸ hff u hu (hne u hu)⟩
  · intro hnn hne
    rcases h3 with h3 | ⟨u, hu, h3⟩
    · exact h3
    · have h3 : setFirstFrame ts = firstFrame u := h3
      have := hnn u hu _ (hff u hu (hne u hu))
      omega

/-- `last_frame()` is the largest frame number of the set (frame numbers not negative). -/
theorem C37_last_frame {ts : TrackSet F D} (hb : ∀ t ∈ ts, Built t) (hne : ∃ t ∈ ts, t.history ≠ [])
    (hnn : ∀ t ∈ ts, ∀ f, HasFrame t f → 0 ≤ f) : IsLargestFrame ts (setLastFrame ts) := by
  obtain ⟨h1, h2, h3⟩ := foldl_last ts 0
  change 0 ≤ setLastFrame ts at h1
  have h2 : ∀ t ∈ ts, lastFrame t ≤ setLastFrame ts := h2
  have ub : ∀ t ∈ ts, ∀ f, HasFrame t f → f ≤ setLastFrame ts := fun t ht f hf => by
    have := (lastFrame_max (hb t ht) hf).2
    have := h2 t ht
    omega
  refine ⟨?_, ub⟩
  obtain ⟨t, ht, hth⟩ := hne
  obtain ⟨s, _, hs⟩ := last_exists hth
  have hs' : HasFrame t s.frame := ⟨s, hs, rfl⟩
  rcases h3 with h3 | ⟨u, hu, h3⟩
  · have h3 : setLastFrame ts = 0 := h3
    have := ub t ht _ hs'
    have := hnn t ht _ hs'
    exact ⟨t, ht, (show s.frame = setLastFrame ts by omega) ▸ hs'⟩
  · have h3 : setLastFrame ts = lastFrame u := h3
    by_cases huh : u.history = []
    · have h0 : lastFrame u = 0 := by unfold lastFrame; rw [huh]; rfl
      have := ub t ht _ hs'
      have := hnn t ht _ hs'
      exact ⟨t, ht, (show s.frame = setLastFrame ts by omega) ▸ hs'⟩
    · obtain ⟨z, _, hz⟩ := last_exists huh
      exact ⟨u, hu, h3 ▸ (lastFrame_max (hb u hu) ⟨z, hz, rfl⟩).1⟩

example : ∃ ts : TrackSet Nat Nat, (∀ t ∈ ts, Built t) ∧ (∃ t ∈ ts, t.history ≠ []) ∧
    (∀ t ∈ ts, ∀ f, HasFrame t f → 0 ≤ f) ∧ setLastFrame ts = 9 := by
  refine ⟨[demoTrack, mkEmpty], ?_, ⟨demoTrack, by simp, by decide⟩, ?_, by decide +kernel⟩
  · intro t ht; simp at ht; rcases ht with rfl | rfl
    · exact demoTrack_built
    · exact .empty
  · intro t ht f ⟨s, hs, hf⟩
    simp at ht; rcases ht with rfl | rfl
    · have : s ∈ [(⟨3, 30, 0⟩ : State Nat Nat), ⟨5, 50, 1⟩, ⟨9, 90, 2⟩] := hs
      simp at this
      rcases this with rfl | rfl | rfl <;> (simp at hf; omega)
    · simp [mkEmpty] at hs

/-! ### C64: new and terminated tracks -/

/-- For sets without empty tracks, `new_tracks` / `terminated_tracks` are exactly the tracks whose first
    / last state is on the designated frame, in order. -/
theorem C64_new_terminated_partial {ts : TrackSet F D} (hb : ∀ t ∈ ts, Built t)
    (hne : ∀ t ∈ ts, t.history ≠ []) {offset : Int} (ho : OffsetOk ts offset) :
    ∃ f new term, Designates ts offset f ∧ newTracks ts offset = some new ∧
      terminatedTracks ts offset = some term ∧ new.Sublist ts ∧ term.Sublist ts ∧
      (∀ t ∈ ts, t ∈ new ↔ HasFrame t f ∧ ∀ g, HasFrame t g → f ≤ g) ∧
      (∀ t ∈ ts, t ∈ term ↔ HasFrame t f ∧ ∀ g, HasFrame t g → g ≤ f) := by
  obtain ⟨f, e, hd⟩ := offset_designates ho
  refine ⟨f, ts.filter (fun t => decide (firstFrame t = f)), ts.filter (fun t => decide (lastFrame t = f)), hd,
    by simp only [newTracks, e], by simp only [terminatedTracks, e], List.filter_sublist,
    List.filter_sublist, ?_, ?_⟩
  · intro t ht
    obtain ⟨z, _, hz⟩ := last_exists (hne t ht)
    obtain ⟨h1, _⟩ := firstFrame_min (hb t ht) ⟨z, hz, rfl⟩
    rw [List.mem_filter, decide_eq_true_eq]
    constructor
    · rintro ⟨_, rfl⟩; exact ⟨h1, fun g hg => (firstFrame_min (hb t ht) hg).2⟩
    · rintro ⟨h2, h3⟩
      have := h3 _ h1
      have := (firstFrame_min (hb t ht) h2).2
      exact ⟨ht, by omega⟩
  · intro t ht
    obtain ⟨z, _, hz⟩ := last_exists (hne t ht)
    obtain ⟨h1, _⟩ := lastFrame_max (hb t ht) ⟨z, hz, rfl⟩
    rw [List.mem_filter, decide_eq_true_eq]
    constructor
    · rintro ⟨_, rfl⟩; exact ⟨h1, fun g hg => (lastFrame_max (hb t ht) hg).2⟩
    · rintro ⟨h2, h3⟩
      have := h3 _ h1
      have := (lastFrame_max (hb t ht) h2).2
      exact ⟨ht, by omega⟩

/-- An empty track is reported as new and as terminated on frame 0, on which it has no state. -/
theorem C64_refuted : ∃ ts : TrackSet Nat Nat, (∀ t ∈ ts, Built t) ∧ ∃ t ∈ ts, ¬ HasFrame t 0 ∧
    (∃ new, newTracks ts 0 = some new ∧ t ∈ new) ∧ (∃ term, terminatedTracks ts 0 = some term ∧ t ∈ term) := by
  refine ⟨[mkEmpty], ?_, mkEmpty, by simp, ?_, ⟨[mkEmpty], rfl, by simp⟩, ⟨[mkEmpty], rfl, by simp⟩⟩
  · intro t ht; simp at ht; subst ht; exact .empty
  · rintro ⟨s, hs, _⟩; simp [mkEmpty] at hs

/-! ### C65: features of the last frame -/

/-- Without empty tracks `last_frame_features` / `last_frame_descriptors` never dereference an invalid
    iterator and return, in order, the data of the states on the last frame. -/
theorem C65_last_frame_features_partial {ts : TrackSet F D} (hne : ∀ t ∈ ts, t.history ≠ []) :
    lastFrameFeatures ts = some (ts.filterMap (fun t => if lastFrame t = setLastFrame ts then
      t.history.getLast?.map (·.feat) else none)) ∧
    lastFrameDescriptors ts = some (ts.filterMap (fun t => if lastFrame t = setLastFrame ts then
      t.history.getLast?.map (·.desc) else none)) := by
  unfold lastFrameFeatures lastFrameDescriptors
  generalize setLastFrame ts = lf
  have gen : ∀ {G : Type} (g : State F D → G) (ts : TrackSet F D) (acc : List G), (∀ t ∈ ts, t.history ≠ []) →
      ts.foldl (lastFrameStep g lf) (some acc) =
      some (acc ++ ts.filterMap (fun t => if lastFrame t = lf then t.history.getLast?.map g else none)) := by
    intro G g ts
    induction ts with
    | nil => intro acc _; simp
    | cons t ts ih =>
      intro acc hne
      simp only [List.foldl_cons]
      have hrest : ∀ u ∈ ts, u.history ≠ [] := fun u hu => hne u (by simp [hu])
      by_cases hc : lastFrame t = lf
      · obtain ⟨z, hz, _⟩ := last_exists (hne t (by simp))
        simp only [lastFrameStep, hc, ↓reduceIte, hz]
        rw [ih _ hrest, List.filterMap_cons]
        simp [hc, hz]
      · simp only [lastFrameStep, hc, ↓reduceIte]
        rw [ih _ hrest, List.filterMap_cons]
        simp [hc]
  exact ⟨by simpa using gen (·.feat) ts [] hne, by simpa using gen (·.desc) ts [] hne⟩

/-- With an empty track and last frame 0 both functions dereference `end() - 1` of an empty vector. -/
theorem C65_refuted : lastFrameFeatures ([mkEmpty] : TrackSet Nat Nat) = none ∧
    lastFrameDescriptors ([mkSingle ⟨0, 1, 1⟩, mkEmpty] : TrackSet Nat Nat) = none := by
  constructor <;> rfl

/-! ### C66: features on a frame -/

/-- `frame_features` / `frame_descriptors` return, in track order, the data of exactly the states on the
    designated frame. -/
theorem C66_frame_features {ts : TrackSet F D} (hb : ∀ t ∈ ts, Built t) {offset : Int}
    (ho : OffsetOk ts offset) : ∃ f, Designates ts offset f ∧
      frameFeatures ts offset = some ((ts.flatMap (·.history)).filterMap (fun s => if s.frame = f then some s.feat else none)) ∧
      frameDescriptors ts offset = some ((ts.flatMap (·.history)).filterMap (fun s => if s.frame = f then some s.desc else none)) := by
  obtain ⟨f, e, hd⟩ := offset_designates ho
  refine ⟨f, hd, ?_⟩
  have one : ∀ {G : Type} (g : State F D → G) (t : Track F D), Built t →
      ((find t f).bind (fun i => (t.history[i]?).map g)).toList =
        t.history.filterMap (fun s => if s.frame = f then some (g s) else none) := by
    intro G g t ht
    obtain ⟨h1, h2⟩ := C34_find_exact ht f
    have ho := C33_ordered ht
    cases hf : find t f with
    | none =>
      have := h2.1 hf
      simp only [Option.bind_none, Option.toList_none]
      symm
      rw [List.filterMap_eq_nil_iff]
      intro s hs
      rw [if_neg]
      intro he; exact this ⟨s, hs, he⟩
    | some i =>
      obtain ⟨s, hs, hsf⟩ := h1 i hf
      simp only [Option.bind_some, hs, Option.map_some, Option.toList_some]
      unfold Ordered at ho
      clear hf h1 h2
      generalize t.history = l at *
      induction l generalizing i with
      | nil => simp at hs
      | cons a l ih =>
        have hp := List.pairwise_cons.1 ho
        cases i with
        | zero =>
          simp at hs; subst hs
          rw [List.filterMap_cons]
          simp only [hsf, ↓reduceIte]
          have : l.filterMap (fun s => if s.frame = f then some (g s) else none) = [] := by
            rw [List.filterMap_eq_nil_iff]
            intro b hb
            have := hp.1 b hb
            rw [if_neg (by omega)]
          rw [this]
        | succ i =>
          simp only [List.getElem?_cons_succ] at hs
          have hsm : s ∈ l := List.mem_of_getElem? hs
          have := hp.1 s hsm
          rw [List.filterMap_cons]
          rw [if_neg (by omega)]
          first | exact ih i hp.2 hs | exact ih i hs hp.2
  have all : ∀ {G : Type} (g : State F D → G) (ts : TrackSet F D), (∀ t ∈ ts, Built t) →
      ts.filterMap (fun t => (find t f).bind (fun i => (t.history[i]?).map g)) =
      (ts.flatMap (·.history)).filterMap (fun s => if s.frame = f then some (g s) else none) := by
    intro G g ts
    induction ts with
    | nil => intro _; rfl
    | cons t ts ih =>
      intro hb
      rw [List.flatMap_cons, List.filterMap_append, ← one g t (hb t (by simp)),
        ← ih (fun u hu => hb u (by simp [hu])), List.filterMap_cons]
      cases (find t f).bind (fun i => (t.history[i]?).map g) <;> simp
  exact ⟨by simp only [frameFeatures, e]; rw [all (·.feat) ts hb],
    by simp only [frameDescriptors, e]; rw [all (·.desc) ts hb]⟩

/-! ### C67: percentage_tracked -/

/-- The numerator counts the tracks with states on both frames, the denominator those with a state on
    either; so the quotient lies in [0,1], and it does not depend on the order of the frames. -/
theorem C67_percentage {ts : TrackSet F D} (hb : ∀ t ∈ ts, Built t) {o1 o2 : Int} (h1 : OffsetOk ts o1)
    (h2 : OffsetOk ts o2) : ∃ f1 f2 num den, Designates ts o1 f1 ∧ Designates ts o2 f2 ∧
      percentageTracked ts o1 o2 = some (num, den) ∧ num ≤ den ∧ den ≤ ts.length ∧
      percentageTracked ts o2 o1 = some (num, den) ∧
      (∃ both either : List (Track F D), both.Sublist ts ∧ either.Sublist ts ∧
        num = both.length ∧ den = either.length ∧
        (∀ t ∈ ts, t ∈ both ↔ HasFrame t f1 ∧ HasFrame t f2) ∧
        (∀ t ∈ ts, t ∈ either ↔ HasFrame t f1 ∨ HasFrame t f2)) := by
  obtain ⟨f1, e1, d1⟩ := offset_designates h1
  obtain ⟨f2, e2, d2⟩ := offset_designates h2
  have gen : ∀ (g1 g2 : Int) (ts : TrackSet F D) (a : Nat × Nat),
      ts.foldl (fun (a : Nat × Nat) t =>
        let on1 := (find t g1).isSome
        let on2 := (find t g2).isSome
        (a.1 + (if on1 && on2 then 1 else 0), a.2 + (if on1 || on2 then 1 else 0))) a =
      (a.1 + (ts.filter (fun t => (find t g1).isSome && (find t g2).isSome)).length,
       a.2 + (ts.filter (fun t => (find t g1).isSome || (find t g2).isSome)).length) := by
    intro g1 g2 ts
    induction ts with
    | nil => intro a; simp
    | cons t ts ih =>
      intro a
      simp only [List.foldl_cons]
      rw [ih]
      cases h1 : (find t g1).isSome <;> cases h2 : (find t g2).isSome <;> simp [h1, h2] <;> omega
  refine ⟨f1, f2, (ts.filter (fun t => (find t f1).isSome && (find t f2).isSome)).length,
    (ts.filter (fun t => (find t f1).isSome || (find t f2).isSome)).length, d1, d2, ?_, ?_, ?_, ?_, ?_⟩
  · simp only [percentageTracked, e1, e2]; rw [gen]; simp
  · have : ∀ ts : TrackSet F D, (ts.filter (fun t => (find t f1).isSome && (find t f2).isSome)).length ≤
      (ts.filter (fun t => (find t f1).isSome || (find t f2).isSome)).length := by
      intro ts
      induction ts with
      | nil => simp
      | cons t ts ih =>
        cases h3 : (find t f1).isSome <;> cases h4 : (find t f2).isSome <;>
          simp only [List.filter_cons, h3, h4, Bool.and_self, Bool.or_self, Bool.and_false, Bool.or_false,
            Bool.and_true, Bool.or_true, Bool.false_eq_true, ↓reduceIte, List.length_cons] <;> omega
    exact this ts
  · exact List.length_filter_le _ _
  · simp only [percentageTracked, e1, e2]; rw [gen]
    simp [Bool.and_comm, Bool.or_comm]
  · refine ⟨_, _, List.filter_sublist, List.filter_sublist, rfl, rfl, ?_, ?_⟩
    · intro t ht
      rw [List.mem_filter, Bool.and_eq_true, find_isSome_iff (hb t ht), find_isSome_iff (hb t ht)]
      simp [ht]
    · intro t ht
      rw [List.mem_filter, Bool.or_eq_true, find_isSome_iff (hb t ht), find_isSome_iff (hb t ht)]
      simp [ht]

/-! ### C68: id sets and lookup by id -/

theorem mem_setInsert (l : List Int) (x y : Int) : y ∈ setInsert l x ↔ y = x ∨ y ∈ l := by
  induction l with
  | nil => simp [setInsert]
  | cons a l ih =>
    unfold setInsert
    split
    · simp
    · split
      · simp only [List.mem_cons, ih]; constructor <;> (intro h; rcases h with h | h | h <;> simp [h])
      · have : x = a := by omega
        subst this; simp

theorem sorted_setInsert {l : List Int} (h : l.Pairwise (· < ·)) (x : Int) : (setInsert l x).Pairwise (· < ·) := by
  induction l with
  | nil => simp [setInsert]
  | cons a l ih =>
    have hp := List.pairwise_cons.1 h
    unfold setInsert
    split
    · rename_i hlt
      refine List.pairwise_cons.2 ⟨?_, h⟩
      intro b hb
      rcases List.mem_cons.1 hb with rfl | hb
      · exact hlt
      · have := hp.1 b hb; omega
    · split
      · rename_i hgt
        refine List.pairwise_cons.2 ⟨?_, ih hp.2⟩
        intro b hb
        rcases (mem_setInsert l x b).1 hb with rfl | hb
        · exact hgt
        · exact hp.1 b hb
      · exact h

theorem foldl_setInsert {α : Type} (g : α → Int) (l : List α) : ∀ acc : List Int, acc.Pairwise (· < ·) →
    (l.foldl (fun a s => setInsert a (g s)) acc).Pairwise (· < ·) ∧
    ∀ x, x ∈ l.foldl (fun a s => setInsert a (g s)) acc ↔ x ∈ acc ∨ ∃ s ∈ l, g s = x := by
  induction l with
  | nil => intro acc h; simp [h]
  | cons a l ih =>
    intro acc h
    simp only [List.foldl_cons]
    obtain ⟨h1, h2⟩ := ih (setInsert acc (g a)) (sorted_setInsert h _)
    refine ⟨h1, fun x => ?_⟩
    rw [h2, mem_setInsert]
    simp only [List.mem_cons, exists_eq_or_imp]
    constructor
    · rintro ((rfl | h) | h)
      · exact Or.inr (Or.inl rfl)
      · exact Or.inl h
      · exact Or.inr (Or.inr h)
    · rintro (h | rfl | h)
      · exact Or.inl (Or.inr h)
      · exact Or.inl (Or.inl rfl)
      · exact Or.inr h

/-- `all_frame_ids` / `all_track_ids` are exactly the frame numbers / ids of the tracks (as sorted sets),
    and `get_track(id)` returns the first track with that id, or null when there is none. -/
theorem C68_ids (ts : TrackSet F D) (x : Int) :
    (x ∈ allFrameIds ts ↔ ∃ t ∈ ts, HasFrame t x) ∧ (allFrameIds ts).Pairwise (· < ·) ∧
    (x ∈ allTrackIds ts ↔ ∃ t ∈ ts, t.id = x) ∧ (allTrackIds ts).Pairwise (· < ·) ∧
    (∀ t, getTrack ts x = some t → ∃ l r, ts = l ++ t :: r ∧ t.id = x ∧ ∀ u ∈ l, u.id ≠ x) ∧
    (getTrack ts x = none ↔ ∀ t ∈ ts, t.id ≠ x) := by
  have hfr : ∀ (ts : TrackSet F D) (acc : List Int), acc.Pairwise (· < ·) →
      (ts.foldl (fun a t => (frameIds t).foldl setInsert a) acc).Pairwise (· < ·) ∧
      ∀ x, x ∈ ts.foldl (fun a t => (frameIds t).foldl setInsert a) acc ↔ x ∈ acc ∨ ∃ t ∈ ts, HasFrame t x := by
    intro ts
    induction ts with
    | nil => intro acc h; simp [h]
    | cons t ts ih =>
      intro acc h
      simp only [List.foldl_cons]
      obtain ⟨a1, a2⟩ := foldl_setInsert (fun s : Int => s) (frameIds t) acc h
      obtain ⟨b1, b2⟩ := ih _ a1
      refine ⟨b1, fun y => ?_⟩
      rw [b2]
      have hft := (foldl_setInsert (fun s : State F D => s.frame) t.history [] List.Pairwise.nil).2 y
      have : y ∈ (frameIds t).foldl setInsert acc ↔ y ∈ acc ∨ HasFrame t y := by
        rw [a2 y]
        simp only [exists_eq_right]
        unfold frameIds HasFrame
        rw [hft]; simp
      rw [this]
      simp only [List.mem_cons, exists_eq_or_imp, or_assoc]
  obtain ⟨a1, a2⟩ := hfr ts [] List.Pairwise.nil
  obtain ⟨b1, b2⟩ := foldl_setInsert (fun t : Track F D => t.id) ts [] List.Pairwise.nil
  refine ⟨by unfold allFrameIds; rw [a2]; simp, a1, by unfold allTrackIds; rw [b2]; simp, b1, ?_, ?_⟩
  · intro t ht
    unfold getTrack at ht
    obtain ⟨h1, l, r, h2, h3⟩ := List.find?_eq_some_iff_append.1 ht
    refine ⟨l, r, h2, by simpa using h1, fun u hu => by have := h3 u hu; simpa using this⟩
  · unfold getTrack; rw [List.find?_eq_none]; simp

example : allFrameIds [demoTrack, mkSingle ⟨4, 0, 0⟩] = [3, 4, 5, 9] := by decide +kernel

end Vital.Track
