import Verif.CApi.Maps
/-
  vital/bindings/python/vital/camera_map.py on top of the C interface of camera maps; property C257.
-/
namespace Vital.Py.Cont
open Vital Vital.CApi Vital.CApi.Maps

-- models: vital/bindings/python/vital/camera_map.py:65, 69 (an element of a ctypes c_uint array): the low 32 bits, without a check
def cuint (n : Int) : Nat := (n % 4294967296).toNat

-- models: vital/bindings/python/vital/camera_map.py:47-82 (__init__): the dictionary in the order it is iterated over, with the handles of the
-- cameras; `none` is the RuntimeError for a NULL handle.  `a` is the address of the new map.  A key that is not an integer (a TypeError) is left out.
def cameraMap (s : St) (a : Nat) (d : List (Int × Nat)) : St × Option Nat :=
  let r := camMapNew s a (some (d.map (fun e => (cuint e.1, e.2))))
  (r.1, if r.2 = 0 then none else some r.2)

-- models: vital/bindings/python/vital/camera_map.py:90-99 (size)
def size (s : St) (cm : Nat) : Nat := camMapSize s cm

/-! ### Specification -/

/-- A Python dictionary: every key once. -/
def IsDict (d : List (Int × Nat)) : Prop := (d.map (·.1)).Nodup

/-- The handles of the dictionary are those of live cameras. -/
def Live (s : St) (d : List (Int × Nat)) : Prop := ∀ e ∈ d, ∃ sp, get s.cams e.2 = .ok sp

/-- The full statement: the map has all the cameras of the dictionary, each at its frame. -/
def C257_statement : Prop := ∀ (s : St) (ops : List Op) (d : List (Int × Nat)) (a : Nat), s.cams = run ops → IsDict d → Live s d → a ≠ 0 →
  s.mcache.cache.find? a = none → ∃ s1, cameraMap s a d = (s1, some a) ∧ size s1 a = d.length ∧
    ∃ s2 fs cs, camMapGetMap s1 a = (s2, some (fs, cs)) ∧ ∀ (k : Int) (h : Nat), (k, h) ∈ d ↔ ∃ i f : Nat, fs[i]? = some f ∧ cs[i]? = some h ∧ (f : Int) = k

/-- **C257** (refuted): frames 0 and 2^32 end in one entry, and frame -1 turns up as frame 4294967295. -/
theorem C257_refuted : ¬ C257_statement := by
  intro h
  obtain ⟨s1, h1, h2, _⟩ := h demoSt [.store ⟨7, 1⟩, .store ⟨9, 2⟩] [(0, 7), (4294967296, 9)] 40 rfl (by unfold IsDict; decide)
    (by
      intro e he
      simp at he
      rcases he with rfl | rfl
      · exact ⟨⟨7, 1⟩, by decide +kernel⟩
      · exact ⟨⟨9, 2⟩, by decide +kernel⟩) (by decide) (by decide)
  have h3 : (cameraMap demoSt 40 [(0, 7), (4294967296, 9)]).1 = s1 := by rw [h1]
  rw [← h3] at h2
  revert h2
  decide +kernel

theorem cuint_self {n : Int} (h0 : 0 ≤ n) (h1 : n < 4294967296) : (cuint n : Int) = n := by
  unfold cuint
  rw [Int.emod_eq_of_lt h0 h1, Int.toNat_of_nonneg h0]

theorem find_unique {l : List (Nat × Nat)} (hn : (l.map (·.1)).Nodup) {f h : Nat} (hm : (f, h) ∈ l) : lastFor l f = some h := by
  unfold lastFor
  have hn' : ∀ x ∈ l.reverse, x.1 = f → x = (f, h) := by
    intro x hx e
    rw [List.mem_reverse] at hx
    obtain ⟨i, hi, rfl⟩ := List.getElem_of_mem hx
    obtain ⟨j, hj, ej⟩ := List.getElem_of_mem hm
    have : i = j := by
      have h1 : (l.map (·.1))[i]'(by simpa using hi) = (l.map (·.1))[j]'(by simpa using hj) := by simp [ej, e]
      exact (List.getElem_inj hn).mp h1
    subst this
    exact ej
  cases hf : l.reverse.find? (fun p => p.1 == f) with
  | none =>
    have := List.find?_eq_none.1 hf (f, h) (List.mem_reverse.2 hm)
    simp at this
  | some q =>
    have h1 := List.find?_some hf
    have h2 := List.mem_of_find?_eq_some hf
    have := hn' q h2 (by simpa using h1)
    rw [this]
    rfl

/-- **C257** (in general): the map has one entry for every frame modulo 2^32. -/
theorem C257_frames (s : St) (ops : List Op) (d : List (Int × Nat)) (a : Nat) (hc : s.cams = run ops) (hl : Live s d) (ha : a ≠ 0)
    (hf : s.mcache.cache.find? a = none) : ∃ s1 s2 fs cs, cameraMap s a d = (s1, some a) ∧ camMapGetMap s1 a = (s2, some (fs, cs)) ∧
      size s1 a = fs.length ∧ fs.Nodup ∧ ∀ f : Nat, f ∈ fs ↔ f < 4294967296 ∧ ∃ k h, (k, h) ∈ d ∧ (k - f) % 4294967296 = 0 := by
  have hl' : ∀ p ∈ d.map (fun e => (cuint e.1, e.2)), ∃ sp, get s.cams p.2 = .ok sp := by
    intro p hp
    obtain ⟨e, he, rfl⟩ := List.mem_map.mp hp
    exact hl e he
  obtain ⟨s1, s2, fs, cs, h1, _, h3, h4, _, h6, h7, _⟩ := C128_new_then_get s ops hc (d.map (fun e => (cuint e.1, e.2))) hl' a ha hf
  refine ⟨s1, s2, fs, cs, ?_, h3, h4, h6.imp (fun h => Nat.ne_of_lt h), fun f => ?_⟩
  · simp only [cameraMap, h1, if_neg ha]
  · rw [h7]
    constructor
    · rintro ⟨cb, hcb⟩
      obtain ⟨e, he, ee⟩ := List.mem_map.mp hcb
      obtain ⟨e1, e2⟩ := Prod.mk.inj ee
      unfold cuint at e1
      exact ⟨by omega, e.1, e.2, he, by omega⟩
    · rintro ⟨hlt, k, h, hm, hk⟩
      refine ⟨h, List.mem_map.mpr ⟨(k, h), hm, ?_⟩⟩
      have : cuint k = f := by unfold cuint; omega
      simp only [this]

/-- **C257** (what holds): with frames from 0 to 2^32 - 1 the map has all the cameras of the dictionary, each at its frame. -/
theorem C257_partial (s : St) (ops : List Op) (d : List (Int × Nat)) (a : Nat) (hc : s.cams = run ops) (hd : IsDict d) (hl : Live s d) (ha : a ≠ 0)
    (hf : s.mcache.cache.find? a = none) (hr : ∀ e ∈ d, 0 ≤ e.1 ∧ e.1 < 4294967296) : ∃ s1, cameraMap s a d = (s1, some a) ∧ size s1 a = d.length ∧
    ∃ s2 fs cs, camMapGetMap s1 a = (s2, some (fs, cs)) ∧ ∀ (k : Int) (h : Nat), (k, h) ∈ d ↔ ∃ i f : Nat, fs[i]? = some f ∧ cs[i]? = some h ∧ (f : Int) = k := by
  have hl' : ∀ p ∈ d.map (fun e => (cuint e.1, e.2)), ∃ sp, get s.cams p.2 = .ok sp := by
    intro p hp
    obtain ⟨e, he, rfl⟩ := List.mem_map.mp hp
    exact hl e he
  obtain ⟨s1, s2, fs, cs, h1, _, h3, h4, h5, h6, h7, h8⟩ := C128_new_then_get s ops hc (d.map (fun e => (cuint e.1, e.2))) hl' a ha hf
  have hinj : ∀ {m : List (Int × Nat)}, (∀ e ∈ m, 0 ≤ e.1 ∧ e.1 < 4294967296) → (m.map (·.1)).Nodup → ((m.map (fun e => (cuint e.1, e.2))).map (·.1)).Nodup := by
    intro m
    induction m with
    | nil => intro _ _; simp
    | cons e m ih =>
      intro hm hn
      simp only [List.map_cons, List.nodup_cons] at hn ⊢
      refine ⟨?_, ih (fun x hx => hm x (List.mem_cons_of_mem _ hx)) hn.2⟩
      intro hx
      obtain ⟨y, hy, ey⟩ := List.mem_map.mp hx
      obtain ⟨z, hz, rfl⟩ := List.mem_map.mp hy
      refine hn.1 (List.mem_map.mpr ⟨z, hz, ?_⟩)
      have r1 := hm e List.mem_cons_self
      have r2 := hm z (List.mem_cons_of_mem _ hz)
      have q1 := cuint_self r1.1 r1.2
      have q2 := cuint_self r2.1 r2.2
      simp only at ey
      rw [← q1, ← q2, ey]
  have hn := hinj hr hd
  have hfn : fs.Nodup := h6.imp (fun h => Nat.ne_of_lt h)
  have hperm : fs.Perm ((d.map (fun e => (cuint e.1, e.2))).map (·.1)) := by
    refine (List.perm_ext_iff_of_nodup hfn hn).mpr (fun f => ?_)
    rw [h7]
    constructor
    · rintro ⟨cb, h⟩
      exact List.mem_map.mpr ⟨_, h, rfl⟩
    · intro h
      obtain ⟨x, hx, rfl⟩ := List.mem_map.mp h
      exact ⟨x.2, hx⟩
  refine ⟨s1, ?_, ?_, s2, fs, cs, h3, fun k h => ?_⟩
  · simp only [cameraMap, h1, if_neg ha]
  · show camMapSize s1 a = d.length
    rw [h4, hperm.length_eq]
    simp
  · constructor
    · intro hm
      have hmem : (cuint k, h) ∈ d.map (fun e => (cuint e.1, e.2)) := List.mem_map.mpr ⟨(k, h), hm, rfl⟩
      obtain ⟨i, hi, ei⟩ := List.getElem_of_mem ((h7 (cuint k)).mpr ⟨h, hmem⟩)
      have hfi : fs[i]? = some (cuint k) := by rw [List.getElem?_eq_getElem hi, ei]
      have hb := hr _ hm
      exact ⟨i, cuint k, hfi, by rw [h8 i _ hfi, find_unique hn hmem], cuint_self hb.1 hb.2⟩
    · rintro ⟨i, f, hi, hci, rfl⟩
      obtain ⟨cb, hcb⟩ := (h7 f).mp (List.mem_of_getElem? hi)
      rw [h8 i f hi, find_unique hn hcb] at hci
      obtain rfl := Option.some.inj hci
      obtain ⟨e, he, ee⟩ := List.mem_map.mp hcb
      obtain ⟨e1, e2⟩ := Prod.mk.inj ee
      have hb := hr _ he
      have hq := cuint_self hb.1 hb.2
      have : e = ((f : Int), cb) := by
        refine Prod.ext ?_ e2
        show e.1 = (f : Int)
        rw [← hq, e1]
      rw [← this]
      exact he

/-- **C257** (a camera without a handle): with a NULL or destroyed camera in the dictionary the constructor raises and nothing is made. -/
theorem C257_dead (s : St) (a : Nat) (d : List (Int × Nat)) (h : ∃ e ∈ d, ∃ x, get s.cams e.2 = .error x) : cameraMap s a d = (s, none) := by
  obtain ⟨e, he, x, hx⟩ := h
  have := C128_new_dead s a (d.map (fun e => (cuint e.1, e.2))) ⟨_, List.mem_map.mpr ⟨e, he, rfl⟩, x, hx⟩
  simp only [cameraMap, this, if_pos]

example : (cameraMap demoSt 40 [(5, 7), (2, 9)]).2 = some 40 ∧ size (cameraMap demoSt 40 [(5, 7), (2, 9)]).1 40 = 2 ∧ IsDict [(5, 7), (2, 9)] := by
  refine ⟨by decide +kernel, by decide +kernel, by unfold IsDict; decide⟩

end Vital.Py.Cont
