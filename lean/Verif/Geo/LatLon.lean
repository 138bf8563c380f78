import Mathlib.Data.EReal.Basic
import Mathlib.Tactic.Linarith
import Mathlib.Tactic.NormNum
/- Latitude and longitude (vital/types/geo_lat_lon.{h,cxx}): property C111. -/
namespace Vital.LatLon

/-- A `double`: not a number, or an extended real number (rounding is not modelled, +0 and -0 are one value). -/
abbrev Dbl := Option EReal

/-- `a <= b` and `a == b` of doubles: false when one of them is not a number. -/
def le (a b : Dbl) : Prop := match a, b with
  | some x, some y => x ≤ y
  | _, _ => False
def eq (a b : Dbl) : Prop := match a, b with
  | some x, some y => x = y
  | _, _ => False

/-- The value of a double that is an ordinary number. -/
def num (x : ℝ) : Dbl := some (x : EReal)

-- models: vital/types/geo_lat_lon.h:75-76 (members)
structure Geo where
  lat : Dbl
  lon : Dbl

-- models: vital/types/geo_lat_lon.cxx:38 (INVALID)
noncomputable def invalid : Dbl := num 444

-- models: vital/types/geo_lat_lon.cxx:40-44
noncomputable def empty : Geo := ⟨invalid, invalid⟩

-- models: vital/types/geo_lat_lon.cxx:58-72
def setLatitude (g : Geo) (l : Dbl) : Geo := { g with lat := l }
def setLongitude (g : Geo) (l : Dbl) : Geo := { g with lon := l }

-- models: vital/types/geo_lat_lon.cxx:89-104
noncomputable def isValid (g : Geo) : Bool :=
  open Classical in
  if ¬ (le (num (-90)) g.lat ∧ le g.lat (num 90)) then false
  else if ¬ (le (num (-180)) g.lon ∧ le g.lon (num 360)) then false
  else true

-- models: vital/types/geo_lat_lon.cxx:107-112
noncomputable def isEmpty (g : Geo) : Bool :=
  open Classical in
  decide (eq invalid g.lat ∧ eq invalid g.lon)

-- models: vital/types/geo_lat_lon.cxx:115-130 (operator==, operator!=)
noncomputable def geoEq (g h : Geo) : Bool :=
  open Classical in
  decide (eq h.lat g.lat ∧ eq h.lon g.lon)
noncomputable def geoNe (g h : Geo) : Bool := !(geoEq g h)

theorem le_num {x y : ℝ} : le (num x) (num y) ↔ x ≤ y := EReal.coe_le_coe_iff

theorem between {a b : ℝ} {d : Dbl} : (le (num a) d ∧ le d (num b)) ↔ ∃ x : ℝ, d = num x ∧ a ≤ x ∧ x ≤ b := by
  constructor
  · intro ⟨h1, h2⟩
    cases d with
    | none => exact absurd h1 (fun h => h)
    | some e =>
      have h1' : (a : EReal) ≤ e := h1
      have h2' : e ≤ (b : EReal) := h2
      induction e with
      | bot => exact absurd h1' (not_le.2 (EReal.bot_lt_coe a))
      | top => exact absurd h2' (not_le.2 (EReal.coe_lt_top b))
      | coe x => exact ⟨x, rfl, EReal.coe_le_coe_iff.1 h1', EReal.coe_le_coe_iff.1 h2'⟩
  · rintro ⟨x, rfl, h1, h2⟩
    exact ⟨le_num.2 h1, le_num.2 h2⟩

/-- C111: a position is valid exactly when both members are numbers in their ranges (so never when one is NaN or infinite); a new
    object is empty, and an empty one is never valid. -/
theorem C111_valid (g : Geo) :
    (isValid g = true ↔ ∃ x y : ℝ, g = ⟨num x, num y⟩ ∧ -90 ≤ x ∧ x ≤ 90 ∧ -180 ≤ y ∧ y ≤ 360) ∧
    (isEmpty g = true ↔ g = empty) ∧ (isEmpty g = true → isValid g = false) := by
  have hv : isValid g = true ↔ ∃ x y : ℝ, g = ⟨num x, num y⟩ ∧ -90 ≤ x ∧ x ≤ 90 ∧ -180 ≤ y ∧ y ≤ 360 := by
    unfold isValid
    rcases g with ⟨lat, lon⟩
    constructor
    · intro h
      split at h
      · cases h
      · rename_i h1
        split at h
        · cases h
        · rename_i h2
          obtain ⟨x, e1, a1, a2⟩ := between.1 (not_not.1 h1)
          obtain ⟨y, e2, b1, b2⟩ := between.1 (not_not.1 h2)
          exact ⟨x, y, congr (congrArg Geo.mk e1) e2, a1, a2, b1, b2⟩
    · rintro ⟨x, y, e, a1, a2, b1, b2⟩
      injection e with e1 e2
      rw [if_neg (not_not.2 (between.2 ⟨x, e1, a1, a2⟩)), if_neg (not_not.2 (between.2 ⟨y, e2, b1, b2⟩))]
  have he : isEmpty g = true ↔ g = empty := by
    have heq : ∀ d : Dbl, eq invalid d ↔ d = invalid := by
      intro d
      cases d with
      | none => exact ⟨fun h => absurd h (fun h => h), fun h => by cases h⟩
      | some e => exact ⟨fun h => congrArg some (Eq.symm h), fun h => by injection h with h; exact h.symm⟩
    unfold isEmpty
    simp only [decide_eq_true_eq]
    rw [heq, heq]
    rcases g with ⟨lat, lon⟩
    simp [empty]
  refine ⟨hv, he, ?_⟩
  intro h
  rw [he] at h
  cases hb : isValid g with
  | false => rfl
  | true =>
    exfalso
    obtain ⟨x, y, e, -, h2, -, -⟩ := hv.1 hb
    rw [h] at e
    injection e with e1 _
    have : (444 : ℝ) = x := by
      unfold invalid num at e1
      injection e1 with e1
      exact EReal.coe_injective e1
    linarith

/-- C111: each setter changes its own member only, and equality compares both members and fails with NaN. -/
theorem C111_members (g h : Geo) (l : Dbl) :
    (setLatitude g l).lat = l ∧ (setLatitude g l).lon = g.lon ∧ (setLongitude g l).lon = l ∧ (setLongitude g l).lat = g.lat ∧
    (geoEq g h = true ↔ g = h ∧ g.lat ≠ none ∧ g.lon ≠ none) ∧ geoNe g h = !(geoEq g h) := by
  refine ⟨rfl, rfl, rfl, rfl, ?_, rfl⟩
  unfold geoEq
  simp only [decide_eq_true_eq]
  have heq : ∀ c d : Dbl, eq d c ↔ c = d ∧ c ≠ none := by
    intro c d
    cases c <;> cases d <;> simp [eq, eq_comm]
  rw [heq, heq]
  rcases g with ⟨a, b⟩
  rcases h with ⟨c, d⟩
  simp only [Geo.mk.injEq]
  tauto

/-- A valid position and two that are not. -/
example : isValid ⟨num 42, num (-73)⟩ = true ∧ isValid ⟨none, num 0⟩ = false ∧ isValid empty = false := by
  refine ⟨(C111_valid _).1.2 ⟨42, -73, rfl, by norm_num, by norm_num, by norm_num, by norm_num⟩, ?_, (C111_valid empty).2.2 ((C111_valid empty).2.1.2 rfl)⟩
  cases hb : isValid ⟨none, num 0⟩ with
  | false => rfl
  | true =>
    obtain ⟨x, y, e, _⟩ := (C111_valid _).1.1 hb
    injection e with e _
    cases e

end Vital.LatLon
