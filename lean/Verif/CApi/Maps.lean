import Verif.CApi.Utils
/-
  Model of the C interfaces to camera maps and track sets (vital/bindings/c/camera_map.cxx, track_set.cxx);
  property C128.  Cameras and tracks are named by the shared pointers kept in their caches (Sptr).
  Every new object gets the address `a` chosen by the allocator.  Error handles are left out (C48).
-/
namespace Vital.CApi.Maps
open Vital Vital.CApi

/-- CAMERA_SPTR_CACHE, the camera maps ever created, CAM_MAP_SPTR_CACHE (a tag is the number of the map). -/
structure St where
  cams : Cache
  maps : List (OMap Nat Sptr)
  mcache : Cache

-- models: vital/bindings/c/camera_map.cxx:67-70 (the loop filling the std::map; a dead handle throws)
def collect (c : Cache) : List (Nat × Nat) → OMap Nat Sptr → Except Err (OMap Nat Sptr)
  | [], m => .ok m
  | (f, cb) :: l, m =>
    match get c cb with
    | .error e => .error e
    | .ok sp => collect c l (m.insert f sp)

-- models: vital/bindings/c/camera_map.cxx:52-77 (vital_camera_map_new); the parallel arrays as a list of
-- pairs, `none` when one of them is NULL
def camMapNew (s : St) (a : Nat) (arr : Option (List (Nat × Nat))) : St × Nat :=
  match collect s.cams (arr.getD []) [] with
  | .error _ => (s, 0)
  | .ok m =>
    match store s.mcache ⟨a, s.maps.length⟩ with
    | (c, .error _) => ({ s with maps := s.maps ++ [m], mcache := c }, 0)
    | (c, .ok ()) => ({ s with maps := s.maps ++ [m], mcache := c }, a)

-- models: vital/bindings/c/camera_map.cxx:81-88 (vital_camera_map_destroy)
def camMapDestroy (s : St) (cm : Nat) : St := { s with mcache := (erase s.mcache cm).1 }

-- models: vital/bindings/c/camera_map.cxx:92-100 (vital_camera_map_size)
def camMapSize (s : St) (cm : Nat) : Nat :=
  match get s.mcache cm with
  | .error _ => 0
  | .ok sp => match s.maps[sp.tag]? with
    | none => 0
    | some m => m.length

-- models: vital/bindings/c/camera_map.cxx:117-124 (the loop of get_map over the stored entries; a stored
-- null pointer would throw, which maps made through this interface do not contain)
def storeAll : List (Nat × Sptr) → Cache → Cache
  | [], c => c
  | (_, sp) :: l, c => storeAll l (store c sp).1

-- models: vital/bindings/c/camera_map.cxx:104-126 (vital_camera_map_get_map): the two output arrays;
-- `none` when the handle is dead
def camMapGetMap (s : St) (cm : Nat) : St × Option (List Nat × List Nat) :=
  match get s.mcache cm with
  | .error _ => (s, none)
  | .ok sp => match s.maps[sp.tag]? with
    | none => (s, none)
    | some m => ({ s with cams := storeAll m s.cams }, some (m.map (·.1), m.map (·.2.ptr)))

-- models: vital/bindings/c/track_set.cxx:58-61 (the loop of vital_trackset_new)
def collectTracks (c : Cache) : List Nat → List Sptr → Except Err (List Sptr)
  | [], acc => .ok acc
  | t :: l, acc =>
    match get c t with
    | .error e => .error e
    | .ok sp => collectTracks c l (acc ++ [sp])

-- models: vital/bindings/c/track_set.cxx:52-71 (vital_trackset_new): the new track set (for
-- TRACK_SET_SPTR_CACHE) or NULL
def trackSetNew (tracks : Cache) (handles : List Nat) : Option (List Sptr) :=
  match collectTracks tracks handles [] with
  | .error _ => none
  | .ok l => some l

/-! ### Specification -/

/-- The camera handle a list of (frame, handle) pairs assigns to frame `f`: the last one given. -/
def lastFor (arr : List (Nat × Nat)) (f : Nat) : Option Nat := (arr.reverse.find? (fun p => p.1 == f)).map (·.2)

theorem get_ptr (ops : List Op) {p : Nat} {sp : Sptr} (h : get (run ops) p = .ok sp) : p ≠ 0 ∧ sp.ptr = p := by
  have hp : p ≠ 0 := by rintro rfl; simp [get] at h
  refine ⟨hp, ?_⟩
  have hk := ((C47_cache ops p hp).1 sp).1 h
  have main : ∀ (ops : List Op) (n : Nat) (k : Option Sptr), (∀ x, k = some x → x.ptr = p) →
      ∀ x, kept p ops n k = some x → x.ptr = p := by
    intro ops
    induction ops with
    | nil => intro n k hk x hx; exact hk x hx
    | cons o ops ih =>
      intro n k hk x hx
      cases o with
      | store s =>
        simp only [kept] at hx
        split at hx
        · rename_i hs
          refine ih _ _ ?_ x hx
          intro y hy
          split at hy
          · cases hy; exact hs
          · exact hk y hy
        · exact ih _ _ hk x hx
      | erase q =>
        simp only [kept] at hx
        split at hx
        · refine ih _ _ ?_ x hx
          intro y hy
          split at hy
          · cases hy
          · exact hk y hy
        · exact ih _ _ hk x hx
  exact main ops 0 none (by simp) sp hk

theorem collect_ok {c : Cache} (arr : List (Nat × Nat)) : ∀ (m : OMap Nat Sptr), OMap.Sorted m →
    (∀ p ∈ arr, ∃ sp, get c p.2 = .ok sp) →
    ∃ m', collect c arr m = .ok m' ∧ OMap.Sorted m' ∧
      ∀ f, m'.find? f = match lastFor arr f with
        | some cb => (match get c cb with | .ok sp => some sp | .error _ => none)
        | none => m.find? f := by
  induction arr with
  | nil => intro m hs _; exact ⟨m, rfl, hs, fun f => rfl⟩
  | cons p arr ih =>
    intro m hs hl
    obtain ⟨f0, cb⟩ := p
    obtain ⟨sp, hsp⟩ := hl (f0, cb) (by simp)
    obtain ⟨m', h1, h2, h3⟩ := ih (m.insert f0 sp) (OMap.sorted_insert hs f0 sp) (fun p hp => hl p (by simp [hp]))
    refine ⟨m', by simp only [collect, hsp, h1], h2, fun f => ?_⟩
    rw [h3 f]
    unfold lastFor
    rw [List.reverse_cons, List.find?_append]
    cases hx : arr.reverse.find? (fun p => p.1 == f) with
    | some q => rfl
    | none =>
      simp only [Option.map_none, Option.none_or, OMap.find?_insert]
      by_cases e : f = f0
      · subst e
        simp [hsp]
      · have : (f0 == f) = false := by simp; exact fun h => e h.symm
        simp [List.find?_cons, this, e]

theorem collect_dead {c : Cache} (arr : List (Nat × Nat)) : ∀ (m : OMap Nat Sptr), (∃ p ∈ arr, ∃ e, get c p.2 = .error e) →
    ∃ e, collect c arr m = .error e := by
  induction arr with
  | nil => rintro m ⟨p, hp, _⟩; simp at hp
  | cons p arr ih =>
    rintro m ⟨q, hq, e, he⟩
    obtain ⟨f0, cb⟩ := p
    unfold collect
    cases hg : get c cb with
    | error e => exact ⟨e, rfl⟩
    | ok sp =>
      rcases List.mem_cons.1 hq with rfl | hq
      · rw [hg] at he; cases he
      · exact ih _ ⟨q, hq, e, he⟩

theorem storeAll_run (m : List (Nat × Sptr)) : ∀ ops, storeAll m (run ops) = run (ops ++ m.map (fun e => .store e.2)) := by
  induction m with
  | nil => intro ops; simp [storeAll]
  | cons e m ih =>
    intro ops
    have : (store (run ops) e.2).1 = run (ops ++ [.store e.2]) := by
      unfold run
      rw [List.foldl_append]
      rfl
    simp only [storeAll, this, ih, List.map_cons, List.append_assoc, List.singleton_append]

theorem refs_stores (p : Nat) (l : List Sptr) : ∀ n, refs p (l.map .store) n = n + (l.map (·.ptr)).count p := by
  induction l with
  | nil => intro n; rfl
  | cons s l ih =>
    intro n
    simp only [List.map_cons, refs, ih, List.count_cons]
    by_cases e : s.ptr = p
    · simp [e]; omega
    · simp [e]

theorem refs_append (p : Nat) (a b : List Op) : ∀ n, refs p (a ++ b) n = refs p b (refs p a n) := by
  induction a with
  | nil => intro n; rfl
  | cons o a ih =>
    intro n
    cases o with
    | store s => simp only [List.cons_append, refs, ih]
    | erase q => simp only [List.cons_append, refs, ih]

/-- Reading a map back, in any later state of the camera cache (also when the caller has destroyed the
    handles meanwhile): exactly the frames in ascending order with their cameras, and each handle handed
    out holds one more reference for each frame it is returned for, so it is live and needs one more
    destroy per occurrence. -/
theorem C128_get_map (s : St) (ops : List Op) (hc : s.cams = run ops) {cm : Nat} {sp : Sptr} {m : OMap Nat Sptr}
    (hg : get s.mcache cm = .ok sp) (hm : s.maps[sp.tag]? = some m) (hp : ∀ e ∈ m, e.2.ptr ≠ 0) :
    ∃ s', camMapGetMap s cm = (s', some (m.map (·.1), m.map (·.2.ptr))) ∧ camMapSize s cm = m.length ∧
      s'.maps = s.maps ∧ s'.mcache = s.mcache ∧
      (∃ ops', s'.cams = run ops' ∧
        ∀ p, refs p ops' 0 = refs p ops 0 + (m.map (·.2.ptr)).count p) ∧
      ∀ e ∈ m, ∃ sp', get s'.cams e.2.ptr = .ok sp' ∧ sp'.ptr = e.2.ptr := by
  have hr : ∀ p, refs p (ops ++ m.map (fun e => .store e.2)) 0 = refs p ops 0 + (m.map (·.2.ptr)).count p := by
    intro p
    rw [refs_append, show m.map (fun e => Op.store e.2) = (m.map (·.2)).map .store by simp, refs_stores, List.map_map]
    rfl
  refine ⟨{ s with cams := storeAll m s.cams }, by simp only [camMapGetMap, hg, hm],
    by simp only [camMapSize, hg, hm], rfl, rfl, ⟨_, ?_, hr⟩, fun e he => ?_⟩
  · simp only [hc, storeAll_run]
  · have hne := hp e he
    simp only [hc, storeAll_run]
    obtain ⟨_, h2, _⟩ := C47_cache (ops ++ m.map (fun e => .store e.2)) e.2.ptr hne
    obtain ⟨sp', hs'⟩ := h2.2 (by
      rw [hr]
      have : 0 < (m.map (·.2.ptr)).count e.2.ptr := List.count_pos_iff.2 (List.mem_map.2 ⟨e, he, rfl⟩)
      omega)
    exact ⟨sp', hs', (get_ptr _ hs').2⟩

/-- A camera map made from parallel arrays: with live camera handles the call succeeds, the map has one
    entry for each distinct frame number, in ascending order, holding the camera given last for it;
    reading it back returns those frames and handles.  The camera handles themselves are not consumed. -/
theorem C128_new_then_get (s : St) (ops : List Op) (hc : s.cams = run ops) (arr : List (Nat × Nat))
    (hl : ∀ p ∈ arr, ∃ sp, get s.cams p.2 = .ok sp) (a : Nat) (ha : a ≠ 0) (hf : s.mcache.cache.find? a = none) :
    ∃ s1 s2 fs cs, camMapNew s a (some arr) = (s1, a) ∧ s1.cams = s.cams ∧ camMapGetMap s1 a = (s2, some (fs, cs)) ∧
      camMapSize s1 a = fs.length ∧ cs.length = fs.length ∧ fs.Pairwise (· < ·) ∧
      (∀ f, f ∈ fs ↔ ∃ cb, (f, cb) ∈ arr) ∧ (∀ (i : Nat) (f : Nat), fs[i]? = some f → cs[i]? = lastFor arr f) := by
  obtain ⟨m, h1, h2, h3⟩ := collect_ok (c := s.cams) arr [] OMap.sorted_nil hl
  have hst : store s.mcache ⟨a, s.maps.length⟩ =
      (⟨s.mcache.cache.insert a ⟨a, s.maps.length⟩, s.mcache.count.insert a 1⟩, .ok ()) := by
    simp [store, ha, OMap.contains, hf]
  have hnew : camMapNew s a (some arr) =
      ({ s with maps := s.maps ++ [m], mcache := ⟨s.mcache.cache.insert a ⟨a, s.maps.length⟩, s.mcache.count.insert a 1⟩ }, a) := by
    simp only [camMapNew, Option.getD_some, h1, hst]
  have hlast : ∀ f cb, lastFor arr f = some cb → (f, cb) ∈ arr := by
    intro f cb h
    unfold lastFor at h
    cases hx : arr.reverse.find? (fun p => p.1 == f) with
    | none => rw [hx] at h; cases h
    | some q =>
      rw [hx] at h
      simp at h
      have h4 := List.find?_some hx
      have h5 := List.mem_of_find?_eq_some hx
      simp at h4 h5
      rw [← h4, ← h]
      exact h5
  have hlast' : ∀ f cb, (f, cb) ∈ arr → ∃ cb', lastFor arr f = some cb' := by
    intro f cb h
    unfold lastFor
    cases hx : arr.reverse.find? (fun p => p.1 == f) with
    | none =>
      have := List.find?_eq_none.1 hx (f, cb) (by simpa using h)
      simp at this
    | some q => exact ⟨_, rfl⟩
  have hfind : ∀ f, m.find? f = match lastFor arr f with
      | some cb => (match get s.cams cb with | .ok sp => some sp | .error _ => none) | none => none := h3
  have hptr : ∀ e ∈ m, lastFor arr e.1 = some e.2.ptr ∧ e.2.ptr ≠ 0 := by
    intro e he
    have := OMap.mem_find? h2 (k := e.1) (v := e.2) he
    rw [hfind] at this
    cases hx : lastFor arr e.1 with
    | none => rw [hx] at this; cases this
    | some cb =>
      rw [hx] at this
      simp only at this
      obtain ⟨sp, hsp⟩ := hl _ (hlast _ _ hx)
      simp only at hsp
      rw [hsp] at this
      simp only [Option.some.injEq] at this
      rw [hc] at hsp
      have hq := get_ptr ops hsp
      subst this
      exact ⟨by rw [hq.2], by rw [hq.2]; exact hq.1⟩
  let s1 : St := { s with maps := s.maps ++ [m], mcache := ⟨s.mcache.cache.insert a ⟨a, s.maps.length⟩, s.mcache.count.insert a 1⟩ }
  have hget : get s1.mcache a = .ok ⟨a, s.maps.length⟩ := by
    simp [s1, get, ha, OMap.find?_insert]
  have hmap : s1.maps[s.maps.length]? = some m := by simp [s1]
  obtain ⟨s2, g1, g2, _⟩ := C128_get_map s1 ops hc (sp := ⟨a, s.maps.length⟩) hget hmap (fun e he => (hptr e he).2)
  refine ⟨s1, s2, m.map (·.1), m.map (·.2.ptr), hnew, rfl, g1, by rw [g2]; simp, by simp, ?_, fun f => ?_, fun i f hi => ?_⟩
  · rw [List.pairwise_map]
    exact List.Pairwise.imp (fun {x y} h => by simpa [KeyOrd.lt] using h) h2
  · have hk := OMap.mem_keys_iff m f
    simp only [OMap.keys] at hk
    rw [hk, hfind]
    constructor
    · intro h
      cases hx : lastFor arr f with
      | none => rw [hx] at h; cases h
      | some cb => exact ⟨cb, hlast f cb hx⟩
    · rintro ⟨cb, h⟩
      obtain ⟨cb', h'⟩ := hlast' f cb h
      rw [h']
      obtain ⟨sp, hsp⟩ := hl _ (hlast f cb' h')
      simp only at hsp
      simp only [hsp, Option.isSome_some]
  · rw [List.getElem?_map] at hi ⊢
    cases hx : m[i]? with
    | none => rw [hx] at hi; cases hi
    | some e =>
      rw [hx] at hi
      simp only [Option.map_some, Option.some.injEq] at hi ⊢
      rw [← hi, (hptr e (List.mem_of_getElem? hx)).1]

/-- With any dead or NULL camera handle, NULL is returned and nothing is created; NULL arrays give an
    empty map. -/
theorem C128_new_dead (s : St) (a : Nat) (arr : List (Nat × Nat)) (h : ∃ p ∈ arr, ∃ e, get s.cams p.2 = .error e) :
    camMapNew s a (some arr) = (s, 0) := by
  obtain ⟨e, he⟩ := collect_dead arr [] h
  simp only [camMapNew, Option.getD_some, he]

theorem C128_new_null (s : St) (a : Nat) : camMapNew s a none = camMapNew s a (some []) := rfl

/-- Destroying a map handle that holds one reference kills that handle and nothing else: its size is 0 and it can no longer be read,
    the camera handles, the maps and all other map handles are as before. -/
theorem C128_destroy (s : St) (ops : List Op) (hm : s.mcache = run ops) {cm : Nat} (h0 : cm ≠ 0) (hr : refs cm ops 0 = 1) :
    camMapSize (camMapDestroy s cm) cm = 0 ∧ camMapGetMap (camMapDestroy s cm) cm = (camMapDestroy s cm, none) ∧
    (camMapDestroy s cm).cams = s.cams ∧ (camMapDestroy s cm).maps = s.maps ∧
    ∀ p, p ≠ cm → get (camMapDestroy s cm).mcache p = get s.mcache p := by
  have hrun : (erase s.mcache cm).1 = run (ops ++ [.erase cm]) := by
    rw [hm]; unfold run; rw [List.foldl_append]; rfl
  have hdead : get (camMapDestroy s cm).mcache cm = .error .noEntry := by
    simp only [camMapDestroy, hrun]
    exact (C47_cache _ cm h0).2.2 (by rw [refs_append, hr]; simp [refs])
  refine ⟨by simp only [camMapSize, hdead], by simp only [camMapGetMap, hdead], rfl, rfl, fun p hp => ?_⟩
  simp only [camMapDestroy, erase, if_neg h0]
  split
  · rfl
  · split
    · simp [get, OMap.find?_erase, hp]
    · rfl

/-- A track set made from handles: the tracks in the order given, or NULL when one is dead. -/
theorem C128_trackset (tracks : Cache) (handles : List Nat) :
    (∀ l, trackSetNew tracks handles = some l ↔
      (l.length = handles.length ∧ ∀ (i : Nat) (t : Nat) (sp : Sptr), handles[i]? = some t → l[i]? = some sp → get tracks t = .ok sp)) ∧
    (trackSetNew tracks handles = none ↔ ∃ t ∈ handles, ∃ e, get tracks t = .error e) := by
  have main : ∀ (hs : List Nat) (acc : List Sptr),
      (∃ l, collectTracks tracks hs acc = .ok (acc ++ l) ∧ l.length = hs.length ∧
        ∀ (i : Nat) (t : Nat), hs[i]? = some t → ∃ sp, l[i]? = some sp ∧ get tracks t = .ok sp) ∨
      ((∃ e, collectTracks tracks hs acc = .error e) ∧ ∃ t ∈ hs, ∃ e, get tracks t = .error e) := by
    intro hs
    induction hs with
    | nil => intro acc; exact Or.inl ⟨[], by simp [collectTracks], rfl, by simp⟩
    | cons t hs ih =>
      intro acc
      unfold collectTracks
      cases hg : get tracks t with
      | error e => exact Or.inr ⟨⟨e, rfl⟩, t, by simp, e, hg⟩
      | ok sp =>
        rcases ih (acc ++ [sp]) with ⟨l, h1, h2, h3⟩ | ⟨⟨e, h1⟩, t', h2, h3⟩
        · refine Or.inl ⟨sp :: l, by simp only [h1]; simp, by simp [h2], ?_⟩
          intro i t' hi
          cases i with
          | zero => simp at hi; subst hi; exact ⟨sp, by simp, hg⟩
          | succ i => simp at hi; obtain ⟨sp', e1, e2⟩ := h3 i t' hi; exact ⟨sp', by simpa using e1, e2⟩
        · exact Or.inr ⟨⟨e, by simp only [h1]⟩, t', by simp [h2], h3⟩
  unfold trackSetNew
  rcases main handles [] with ⟨l, h1, h2, h3⟩ | ⟨⟨e, h1⟩, hd⟩
  · rw [h1]
    simp only [List.nil_append]
    refine ⟨fun l' => ⟨?_, ?_⟩, ?_⟩
    · rintro ⟨⟩
      refine ⟨h2, fun i t sp e1 e2 => ?_⟩
      obtain ⟨sp', e3, e4⟩ := h3 i t e1
      rw [e2] at e3; cases e3; exact e4
    · rintro ⟨hl, hx⟩
      congr 1
      apply List.ext_getElem?
      intro i
      by_cases hi : i < handles.length
      · obtain ⟨sp, e3, e4⟩ := h3 i handles[i] (List.getElem?_eq_getElem hi)
        have hi' : i < l'.length := by omega
        have := hx i handles[i] l'[i] (List.getElem?_eq_getElem hi) (List.getElem?_eq_getElem hi')
        rw [e4] at this
        cases this
        rw [e3, List.getElem?_eq_getElem hi']
      · rw [List.getElem?_eq_none (by omega), List.getElem?_eq_none (by omega)]
    · constructor
      · intro h; cases h
      · rintro ⟨t, ht, e, he⟩
        obtain ⟨i, hi, rfl⟩ := List.mem_iff_getElem.1 ht
        obtain ⟨sp, _, e4⟩ := h3 i handles[i] (List.getElem?_eq_getElem hi)
        rw [e4] at he; cases he
  · rw [h1]
    refine ⟨fun l' => ⟨fun h => (by cases h), ?_⟩, ⟨fun _ => hd, fun _ => rfl⟩⟩
    rintro ⟨hl, hx⟩
    obtain ⟨t, ht, e, he⟩ := hd
    obtain ⟨i, hi, rfl⟩ := List.mem_iff_getElem.1 ht
    have hi' : i < l'.length := by omega
    have := hx i handles[i] l'[i] (List.getElem?_eq_getElem hi) (List.getElem?_eq_getElem hi')
    rw [this] at he; cases he

/-- Two cameras, three pairs, one frame given twice. -/
def demoSt : St := ⟨run [.store ⟨7, 1⟩, .store ⟨9, 2⟩], [], CApi.empty⟩

example : (∀ p ∈ [(5, 7), (2, 9), (5, 9)], ∃ sp, get demoSt.cams p.2 = .ok sp) ∧
    ((camMapGetMap (camMapNew demoSt 40 (some [(5, 7), (2, 9), (5, 9)])).1 40).2 = some ([2, 5], [9, 9])) := by
  refine ⟨?_, by decide +kernel⟩
  intro p hp
  simp at hp
  rcases hp with rfl | rfl | rfl
  · exact ⟨⟨7, 1⟩, by decide +kernel⟩
  · exact ⟨⟨9, 2⟩, by decide +kernel⟩
  · exact ⟨⟨9, 2⟩, by decide +kernel⟩

example : (camMapNew demoSt 40 (some [(5, 7)])).1.mcache = run [.store ⟨40, 0⟩] ∧ refs 40 [.store ⟨40, 0⟩] 0 = 1 := ⟨rfl, rfl⟩

end Vital.CApi.Maps
