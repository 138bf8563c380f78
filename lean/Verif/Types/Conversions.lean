import Verif.Types.Covariance
/-
  Features, landmarks and cameras as values: constructors, conversions through the abstract base class, setters
  (vital/types/feature.{h,cxx}, landmark.{h,cxx}, camera.h, camera_intrinsics.h); properties C249, C250, C251.
  `S` is the number type of the object (float or double), `D` is double; `up` is the conversion to double and `down` the conversion from it.
  Values of numbers never assigned are `none`.
-/
namespace Vital.Conv
open Vital Vital.Cov

/-- The conversions between the number types: a float is exactly a double (for S = double both are the identity). -/
structure Num (S D : Type) where
  up : S → D
  down : D → S
  down_up : ∀ x, down (up x) = x

-- models: vital/types/covariance.h:60, 69-78: the default constructor assigns nothing; the converting constructor copies N slots
def covDefault (N : Nat) {T : Type} : List (Option T) := List.replicate (dataSize N) none
def covConvert (N : Nat) {U T : Type} (cast : U → T) (data : List (Option U)) : List (Option T) :=
  (data.take N).map (fun x => x.map cast) ++ List.replicate (dataSize N - N) none

/-- A colour: red, green, blue. -/
structure Color where
  r : Nat
  g : Nat
  b : Nat
deriving DecidableEq

/-! ### feature -/

-- models: vital/types/feature.h:176-190 (members of feature_<T>)
structure Feature (S : Type) where
  loc : S × S
  magnitude : S
  scale : S
  angle : S
  covar : List (Option S)
  color : Color

-- models: vital/types/feature.h:62-83 (what the virtual functions of the base class report, in double precision)
structure FeatureView (D : Type) where
  loc : D × D
  magnitude : D
  scale : D
  angle : D
  covar : List (Option D)
  color : Color

-- models: vital/types/color.h (the default colour is white)
def white : Color := ⟨255, 255, 255⟩

-- models: vital/types/feature.cxx:57-66 (default constructor)
def Feature.default {S : Type} (zero one : S) : Feature S := ⟨(zero, zero), zero, one, zero, covDefault 2, white⟩

-- models: vital/types/feature.cxx:69-81 (constructor from values)
def Feature.make {S : Type} (loc : S × S) (mag scale angle : S) (color : Color) : Feature S := ⟨loc, mag, scale, angle, covDefault 2, color⟩

-- models: vital/types/feature.h:121-154 (the virtual functions); `same` says that S is double, when the covariance is copied by the copy constructor
def Feature.view {S D : Type} (n : Num S D) (same : Bool) (f : Feature S) : FeatureView D :=
  ⟨(n.up f.loc.1, n.up f.loc.2), n.up f.magnitude, n.up f.scale, n.up f.angle,
    if same then f.covar.map (fun x => x.map n.up) else covConvert 2 n.up f.covar, f.color⟩

-- models: vital/types/feature.cxx:84-93 (constructor from a base class feature): the covariance is not mentioned, so it is default constructed
def Feature.ofView {S D : Type} (n : Num S D) (v : FeatureView D) : Feature S :=
  ⟨(n.down v.loc.1, n.down v.loc.2), n.down v.magnitude, n.down v.scale, n.down v.angle, covDefault 2, v.color⟩

inductive FeatureOp (S : Type) where
  | loc (x : S × S)
  | magnitude (x : S)
  | scale (x : S)
  | angle (x : S)
  | covar (x : List (Option S))
  | color (x : Color)

-- models: vital/types/feature.h:158-173 (the setters)
def Feature.set {S : Type} (f : Feature S) : FeatureOp S → Feature S
  | .loc x => { f with loc := x }
  | .magnitude x => { f with magnitude := x }
  | .scale x => { f with scale := x }
  | .angle x => { f with angle := x }
  | .covar x => { f with covar := x }
  | .color x => { f with color := x }

/-! ### landmark -/

-- models: vital/types/landmark.h:176-190 (members of landmark_<T>)
structure Landmark (S : Type) where
  loc : S × S × S
  scale : S
  normal : S × S × S
  covar : List (Option S)
  color : Color
  observations : Nat

structure LandmarkView (D : Type) where
  loc : D × D × D
  scale : D
  normal : D × D × D
  covar : List (Option D)
  color : Color
  observations : Nat

def map3 {A B : Type} (f : A → B) (v : A × A × A) : B × B × B := (f v.1, f v.2.1, f v.2.2)

-- models: vital/types/landmark.cxx:59-67, 70-79 (default constructor; constructor from location and scale)
def Landmark.make {S : Type} (zero : S) (loc : S × S × S) (scale : S) : Landmark S := ⟨loc, scale, (zero, zero, zero), covDefault 3, white, 0⟩

-- models: vital/types/landmark.h:122-155 (the virtual functions)
def Landmark.view {S D : Type} (n : Num S D) (same : Bool) (f : Landmark S) : LandmarkView D :=
  ⟨map3 n.up f.loc, n.up f.scale, map3 n.up f.normal, if same then f.covar.map (fun x => x.map n.up) else covConvert 3 n.up f.covar, f.color, f.observations⟩

-- models: vital/types/landmark.cxx:83-93 (constructor from a base class landmark): the covariance is not mentioned
def Landmark.ofView {S D : Type} (n : Num S D) (v : LandmarkView D) : Landmark S :=
  ⟨map3 n.down v.loc, n.down v.scale, map3 n.down v.normal, covDefault 3, v.color, v.observations⟩

-- models: vital/types/landmark.h:115-116 (clone: the implicit copy constructor)
def Landmark.clone {S : Type} (f : Landmark S) : Landmark S := ⟨f.loc, f.scale, f.normal, f.covar, f.color, f.observations⟩

inductive LandmarkOp (S : Type) where
  | loc (x : S × S × S)
  | scale (x : S)
  | normal (x : S × S × S)
  | covar (x : List (Option S))
  | color (x : Color)
  | observations (x : Nat)

-- models: vital/types/landmark.h:158-173 (the setters)
def Landmark.set {S : Type} (f : Landmark S) : LandmarkOp S → Landmark S
  | .loc x => { f with loc := x }
  | .scale x => { f with scale := x }
  | .normal x => { f with normal := x }
  | .covar x => { f with covar := x }
  | .color x => { f with color := x }
  | .observations x => { f with observations := x }

/-! ### C249: conversion through the base class -/

/-- Full property: the feature made from any feature `v` has every attribute of `v`, rounded to the number type; the same for landmarks. -/
def C249_statement : Prop := ∀ (S D : Type) (n : Num S D),
  (∀ v : FeatureView D, v.covar.length = 3 → let f := Feature.ofView n v
    f.loc = (n.down v.loc.1, n.down v.loc.2) ∧ f.magnitude = n.down v.magnitude ∧ f.scale = n.down v.scale ∧ f.angle = n.down v.angle ∧
    f.color = v.color ∧ f.covar = v.covar.map (fun x => x.map n.down)) ∧
  (∀ v : LandmarkView D, v.covar.length = 6 → let f := Landmark.ofView n v
    f.loc = map3 n.down v.loc ∧ f.scale = n.down v.scale ∧ f.normal = map3 n.down v.normal ∧ f.color = v.color ∧
    f.observations = v.observations ∧ f.covar = v.covar.map (fun x => x.map n.down))

/-- C249 is false of the code: the covariance of the new object is never assigned, whatever the original's is. -/
theorem C249_refuted : ¬ C249_statement ∧ (∀ {S D : Type} (n : Num S D) (v : FeatureView D), (Feature.ofView n v).covar = [none, none, none]) ∧
    (∀ {S D : Type} (n : Num S D) (v : LandmarkView D), (Landmark.ofView n v).covar = [none, none, none, none, none, none]) := by
  refine ⟨fun h => ?_, fun _ _ => rfl, fun _ _ => rfl⟩
  have := ((h Int Int ⟨id, id, fun _ => rfl⟩).1 ⟨(0, 0), 0, 0, 0, [some 1, some 0, some 1], white⟩ rfl).2.2.2.2.2
  cases this

/-- What holds: every other attribute is kept.  Missing: the covariance. -/
theorem C249_partial {S D : Type} (n : Num S D) : (∀ v : FeatureView D, let f := Feature.ofView n v
    f.loc = (n.down v.loc.1, n.down v.loc.2) ∧ f.magnitude = n.down v.magnitude ∧ f.scale = n.down v.scale ∧ f.angle = n.down v.angle ∧ f.color = v.color) ∧
  (∀ v : LandmarkView D, let f := Landmark.ofView n v
    f.loc = map3 n.down v.loc ∧ f.scale = n.down v.scale ∧ f.normal = map3 n.down v.normal ∧ f.color = v.color ∧ f.observations = v.observations) :=
  ⟨fun _ => ⟨rfl, rfl, rfl, rfl, rfl⟩, fun _ => ⟨rfl, rfl, rfl, rfl, rfl⟩⟩

/-- An object read through the base class and made again in its own number type has its own attributes, exactly (all but the covariance). -/
theorem C249_round_trip {S D : Type} (n : Num S D) (same : Bool) : (∀ f : Feature S, let g := Feature.ofView n (f.view n same)
    g.loc = f.loc ∧ g.magnitude = f.magnitude ∧ g.scale = f.scale ∧ g.angle = f.angle ∧ g.color = f.color) ∧
  (∀ f : Landmark S, let g := Landmark.ofView n (f.view n same)
    g.loc = f.loc ∧ g.scale = f.scale ∧ g.normal = f.normal ∧ g.color = f.color ∧ g.observations = f.observations) := by
  constructor
  · intro f
    simp [Feature.ofView, Feature.view, n.down_up]
  · intro f
    simp [Landmark.ofView, Landmark.view, map3, n.down_up]

/-- A clone of a landmark reports the same through every function. -/
theorem C249_clone {S D : Type} (n : Num S D) (same : Bool) (f : Landmark S) : f.clone.view n same = f.view n same := rfl

/-! ### C250: setters -/

def Feature.setAll {S : Type} (f : Feature S) (l : List (FeatureOp S)) : Feature S := l.foldl Feature.set f
def Landmark.setAll {S : Type} (f : Landmark S) (l : List (LandmarkOp S)) : Landmark S := l.foldl Landmark.set f

/-- Specification: the last of the values that a history sets (`g` picks those of one attribute), or the one before it. -/
def lastSet {O A : Type} (g : O → Option A) (before : A) (l : List O) : A := (l.filterMap g).getLastD before

theorem lastSet_spec {O A S : Type} (step : S → O → S) (get : S → A) (g : O → Option A) (hs : ∀ s o, get (step s o) = (g o).getD (get s)) (l : List O) :
    ∀ s, get (l.foldl step s) = lastSet g (get s) l := by
  induction l with
  | nil => intro s; rfl
  | cons o l ih =>
    intro s
    rw [List.foldl_cons, ih, hs]
    unfold lastSet
    rw [List.filterMap_cons]
    cases g o with
    | none => rfl
    | some a => simp only [Option.getD_some]; rw [List.getLastD_cons]

/-- C250: after any history of setter calls every attribute is the value last set for it, or, if never set, the one the object had. -/
theorem C250_feature {S : Type} (f : Feature S) (l : List (FeatureOp S)) :
    (f.setAll l).loc = lastSet (fun o => match o with | .loc x => some x | _ => none) f.loc l ∧
    (f.setAll l).magnitude = lastSet (fun o => match o with | .magnitude x => some x | _ => none) f.magnitude l ∧
    (f.setAll l).scale = lastSet (fun o => match o with | .scale x => some x | _ => none) f.scale l ∧
    (f.setAll l).angle = lastSet (fun o => match o with | .angle x => some x | _ => none) f.angle l ∧
    (f.setAll l).covar = lastSet (fun o => match o with | .covar x => some x | _ => none) f.covar l ∧
    (f.setAll l).color = lastSet (fun o => match o with | .color x => some x | _ => none) f.color l := by
  refine ⟨?_, ?_, ?_, ?_, ?_, ?_⟩
  · exact lastSet_spec Feature.set Feature.loc _ (fun s o => by cases o <;> rfl) l f
  · exact lastSet_spec Feature.set Feature.magnitude _ (fun s o => by cases o <;> rfl) l f
  · exact lastSet_spec Feature.set Feature.scale _ (fun s o => by cases o <;> rfl) l f
  · exact lastSet_spec Feature.set Feature.angle _ (fun s o => by cases o <;> rfl) l f
  · exact lastSet_spec Feature.set Feature.covar _ (fun s o => by cases o <;> rfl) l f
  · exact lastSet_spec Feature.set Feature.color _ (fun s o => by cases o <;> rfl) l f

theorem C250_landmark {S : Type} (f : Landmark S) (l : List (LandmarkOp S)) :
    (f.setAll l).loc = lastSet (fun o => match o with | .loc x => some x | _ => none) f.loc l ∧
    (f.setAll l).scale = lastSet (fun o => match o with | .scale x => some x | _ => none) f.scale l ∧
    (f.setAll l).normal = lastSet (fun o => match o with | .normal x => some x | _ => none) f.normal l ∧
    (f.setAll l).covar = lastSet (fun o => match o with | .covar x => some x | _ => none) f.covar l ∧
    (f.setAll l).color = lastSet (fun o => match o with | .color x => some x | _ => none) f.color l ∧
    (f.setAll l).observations = lastSet (fun o => match o with | .observations x => some x | _ => none) f.observations l := by
  refine ⟨?_, ?_, ?_, ?_, ?_, ?_⟩
  · exact lastSet_spec Landmark.set Landmark.loc _ (fun s o => by cases o <;> rfl) l f
  · exact lastSet_spec Landmark.set Landmark.scale _ (fun s o => by cases o <;> rfl) l f
  · exact lastSet_spec Landmark.set Landmark.normal _ (fun s o => by cases o <;> rfl) l f
  · exact lastSet_spec Landmark.set Landmark.covar _ (fun s o => by cases o <;> rfl) l f
  · exact lastSet_spec Landmark.set Landmark.color _ (fun s o => by cases o <;> rfl) l f
  · exact lastSet_spec Landmark.set Landmark.observations _ (fun s o => by cases o <;> rfl) l f

/-- New objects have the documented attributes. -/
theorem C250_new {S : Type} (zero one : S) (loc : S × S) (mag scale angle : S) (color : Color) (loc3 : S × S × S) :
    ((Feature.default zero one).loc = (zero, zero) ∧ (Feature.default zero one).magnitude = zero ∧ (Feature.default zero one).scale = one ∧
      (Feature.default zero one).angle = zero ∧ (Feature.default zero one).color = ⟨255, 255, 255⟩) ∧
    ((Feature.make loc mag scale angle color).loc = loc ∧ (Feature.make loc mag scale angle color).magnitude = mag ∧
      (Feature.make loc mag scale angle color).scale = scale ∧ (Feature.make loc mag scale angle color).angle = angle ∧
      (Feature.make loc mag scale angle color).color = color) ∧
    ((Landmark.make zero loc3 scale).loc = loc3 ∧ (Landmark.make zero loc3 scale).scale = scale ∧ (Landmark.make zero loc3 scale).normal = (zero, zero, zero) ∧
      (Landmark.make zero loc3 scale).color = ⟨255, 255, 255⟩ ∧ (Landmark.make zero loc3 scale).observations = 0) :=
  ⟨⟨rfl, rfl, rfl, rfl, rfl⟩, ⟨rfl, rfl, rfl, rfl, rfl⟩, ⟨rfl, rfl, rfl, rfl, rfl⟩⟩

example : ((Feature.default (0 : Int) 1).setAll [.scale 3, .loc (1, 2), .scale 4]).scale = 4 := by decide

/-! ### C251: cameras and their intrinsics -/

/-- The intrinsics objects (values `V`) and, for every camera, the object it points to. -/
structure Cams (V : Type) where
  intr : List V
  cams : List Nat

inductive CamOp (V : Type) where
  | newIntr (v : V)
  | change (p : Nat) (v : V)
  | newDefault
  | newWith (p : Option Nat)
  | newRef (p : Nat)
  | copy (c : Nat)
  | setIntr (c : Nat) (p : Option Nat)

/-- A pointer to a new object. -/
def Cams.alloc {V : Type} (s : Cams V) (v : V) : Cams V × Nat := (⟨s.intr ++ [v], s.cams⟩, s.intr.length)

-- models: vital/types/camera.h:142-145, 222-224 (a null pointer is replaced by new default intrinsics)
def Cams.orNew {V : Type} (d : V) (s : Cams V) : Option Nat → Cams V × Nat
  | none => s.alloc d
  | some p => (s, p)

-- models: vital/types/camera.h:127-170 (constructors, clone), 220-225 (set_intrinsics); `change` is a holder of an intrinsics object assigning to it;
-- `none` when an object is used that does not exist
def Cams.exec {V : Type} (d : V) (s : Cams V) : CamOp V → Option (Cams V)
  | .newIntr v => some (s.alloc v).1
  | .change p v => if p < s.intr.length then some ⟨s.intr.set p v, s.cams⟩ else none
  | .newDefault => some (⟨(s.alloc d).1.intr, s.cams ++ [(s.alloc d).2]⟩)
  | .newWith p => some (⟨(s.orNew d p).1.intr, s.cams ++ [(s.orNew d p).2]⟩)
  | .newRef p => (s.intr[p]?).map (fun v => ⟨(s.alloc v).1.intr, s.cams ++ [(s.alloc v).2]⟩)
  | .copy c => (s.cams[c]?).map (fun p => ⟨s.intr, s.cams ++ [p]⟩)
  | .setIntr c p => if c < s.cams.length then some ⟨(s.orNew d p).1.intr, s.cams.set c (s.orNew d p).2⟩ else none

def Cams.run {V : Type} (d : V) : Cams V → List (CamOp V) → Option (Cams V)
  | s, [] => some s
  | s, o :: l => (s.exec d o).bind (fun s => s.run d l)

/-- The intrinsics a camera reports. -/
def Cams.read {V : Type} (s : Cams V) (c : Nat) : Option V := (s.cams[c]?).bind (fun p => s.intr[p]?)

/-- The pointers a program passes exist. -/
def CamOp.legal {V : Type} (s : Cams V) : CamOp V → Prop
  | .newWith (some p) => p < s.intr.length
  | .setIntr _ (some p) => p < s.intr.length
  | _ => True

/-- A history in which the program passes pointers that exist. -/
inductive Cams.Runs {V : Type} (d : V) : Cams V → List (CamOp V) → Cams V → Prop where
  | nil {s : Cams V} : Cams.Runs d s [] s
  | cons {s s' s'' : Cams V} {o : CamOp V} {l : List (CamOp V)} : o.legal s → s.exec d o = some s' → Cams.Runs d s' l s'' → Cams.Runs d s (o :: l) s''

def Cams.Good {V : Type} (s : Cams V) : Prop := ∀ p ∈ s.cams, p < s.intr.length

theorem orNew_spec {V : Type} (d : V) (s : Cams V) (p : Option Nat) (hp : ∀ q, p = some q → q < s.intr.length) :
    (s.orNew d p).2 < (s.orNew d p).1.intr.length ∧ s.intr.length ≤ (s.orNew d p).1.intr.length ∧
    (∀ i, i < s.intr.length → (s.orNew d p).1.intr[i]? = s.intr[i]?) := by
  cases p with
  | none =>
    refine ⟨by simp [Cams.orNew, Cams.alloc], by simp [Cams.orNew, Cams.alloc], ?_⟩
    intro i hi
    simp [Cams.orNew, Cams.alloc, List.getElem?_append_left hi]
  | some q => exact ⟨hp q rfl, Nat.le_refl _, fun _ _ => rfl⟩

/-- What one call does to the objects there were. -/
theorem exec_frame {V : Type} {d : V} {s s' : Cams V} {o : CamOp V} (hg : s.Good) (hl : o.legal s) (h : s.exec d o = some s') :
    s'.Good ∧ s.intr.length ≤ s'.intr.length ∧ s.cams.length ≤ s'.cams.length ∧
    (∀ i, i < s.intr.length → (∀ v, o ≠ .change i v) → s'.intr[i]? = s.intr[i]?) ∧
    (∀ c, c < s.cams.length → (∀ p, o ≠ .setIntr c p) → s'.cams[c]? = s.cams[c]?) := by
  have app : ∀ (x : Nat) (c : Nat), c < s.cams.length → (s.cams ++ [x])[c]? = s.cams[c]? := fun x c hc => List.getElem?_append_left hc
  have appi : ∀ (x : V) (c : Nat), c < s.intr.length → (s.intr ++ [x])[c]? = s.intr[c]? := fun x c hc => List.getElem?_append_left hc
  cases o with
  | newIntr v =>
    obtain rfl := Option.some.inj h
    refine ⟨fun p hp => ?_, by simp [Cams.alloc], Nat.le_refl _, fun i hi _ => appi v i hi, fun c _ _ => rfl⟩
    have := hg p hp
    simp [Cams.alloc]; omega
  | change p v =>
    simp only [Cams.exec] at h
    split at h
    · obtain rfl := Option.some.inj h
      refine ⟨fun q hq => by simpa using hg q hq, by simp, Nat.le_refl _, ?_, fun c _ _ => rfl⟩
      intro i hi hne
      by_cases e : p = i
      · subst e; exact absurd rfl (hne v)
      · simp [List.getElem?_set_ne e]
    · cases h
  | newDefault =>
    obtain rfl := Option.some.inj h
    refine ⟨fun p hp => ?_, by simp [Cams.alloc], by simp, fun i hi _ => appi d i hi, fun c hc _ => app _ c hc⟩
    rcases List.mem_append.1 hp with hp | hp
    · have := hg p hp
      simp [Cams.alloc]; omega
    · simp [Cams.alloc] at hp ⊢; omega
  | newWith p =>
    obtain rfl := Option.some.inj h
    obtain ⟨h1, h2, h3⟩ := orNew_spec d s p (by rintro q rfl; exact hl)
    refine ⟨fun q hq => ?_, h2, by simp, fun i hi _ => h3 i hi, fun c hc _ => app _ c hc⟩
    rcases List.mem_append.1 hq with hq | hq
    · have := hg q hq
      show q < (s.orNew d p).1.intr.length
      omega
    · rw [List.mem_singleton] at hq
      rw [hq]; exact h1
  | newRef p =>
    simp only [Cams.exec] at h
    cases hv : s.intr[p]? with
    | none => rw [hv] at h; cases h
    | some v =>
      rw [hv] at h
      obtain rfl := Option.some.inj h
      refine ⟨fun q hq => ?_, by simp [Cams.alloc], by simp, fun i hi _ => appi v i hi, fun c hc _ => app _ c hc⟩
      rcases List.mem_append.1 hq with hq | hq
      · have := hg q hq
        simp [Cams.alloc]; omega
      · simp [Cams.alloc] at hq ⊢; omega
  | copy c =>
    simp only [Cams.exec] at h
    cases hv : s.cams[c]? with
    | none => rw [hv] at h; cases h
    | some v =>
      rw [hv] at h
      obtain rfl := Option.some.inj h
      refine ⟨fun q hq => ?_, Nat.le_refl _, by simp, fun i hi _ => rfl, fun c hc _ => app _ c hc⟩
      rcases List.mem_append.1 hq with hq | hq
      · exact hg q hq
      · rw [List.mem_singleton] at hq
        rw [hq]; exact hg v (List.mem_of_getElem? hv)
  | setIntr c p =>
    simp only [Cams.exec] at h
    split at h
    · obtain rfl := Option.some.inj h
      obtain ⟨h1, h2, h3⟩ := orNew_spec d s p (by rintro q rfl; exact hl)
      refine ⟨fun q hq => ?_, h2, by simp, fun i hi _ => h3 i hi, ?_⟩
      · rcases List.mem_or_eq_of_mem_set hq with hq | hq
        · have := hg q hq
          show q < (s.orNew d p).1.intr.length
          omega
        · rw [hq]; exact h1
      · intro c' hc' hne
        by_cases e : c = c'
        · subst e; exact absurd rfl (hne p)
        · simp [List.getElem?_set_ne e]
    · cases h

theorem runs_frame {V : Type} {d : V} {s s' : Cams V} {l : List (CamOp V)} (h : Cams.Runs d s l s') (hg : s.Good) :
    s'.Good ∧ s.intr.length ≤ s'.intr.length ∧ s.cams.length ≤ s'.cams.length ∧
    (∀ i, i < s.intr.length → (∀ v, CamOp.change i v ∉ l) → s'.intr[i]? = s.intr[i]?) ∧
    (∀ c, c < s.cams.length → (∀ p, CamOp.setIntr c p ∉ l) → s'.cams[c]? = s.cams[c]?) := by
  induction h with
  | nil => exact ⟨hg, Nat.le_refl _, Nat.le_refl _, fun _ _ _ => rfl, fun _ _ _ => rfl⟩
  | cons hl he _ ih =>
    obtain ⟨g1, a1, b1, c1, d1⟩ := exec_frame hg hl he
    obtain ⟨g2, a2, b2, c2, d2⟩ := ih g1
    refine ⟨g2, by omega, by omega, ?_, ?_⟩
    · intro i hi hn
      rw [c2 i (by omega) (fun v hv => hn v (by simp [hv])), c1 i hi (fun v hv => hn v (by simp [hv]))]
    · intro c hc hn
      rw [d2 c (by omega) (fun v hv => hn v (by simp [hv])), d1 c hc (fun v hv => hn v (by simp [hv]))]

/-- C251: a camera always has intrinsics, in every history, also when null pointers are passed for them. -/
theorem C251_never_null {V : Type} {d : V} {l : List (CamOp V)} {s : Cams V} (h : Cams.Runs d ⟨[], []⟩ l s) (c : Nat) (hc : c < s.cams.length) :
    ∃ v, s.read c = some v := by
  have hg := (runs_frame h (by intro p hp; cases hp)).1
  have h1 : s.cams[c]? = some s.cams[c] := List.getElem?_eq_getElem hc
  have h2 := hg _ (List.mem_of_getElem? h1)
  exact ⟨s.intr[s.cams[c]], by simp [Cams.read, h1, List.getElem?_eq_getElem h2]⟩

/-- A camera made from the intrinsics of a reference, or with null or no intrinsics, has its own copy: nothing done to other objects changes what it
    reports (`k` is the number of its own object, which is new). -/
theorem C251_own_copy {V : Type} {d : V} {l0 l : List (CamOp V)} {s0 s1 s : Cams V} {o : CamOp V} {v : V} (h0 : Cams.Runs d ⟨[], []⟩ l0 s0)
    (ho : (∃ p, o = .newRef p ∧ s0.intr[p]? = some v) ∨ ((o = .newDefault ∨ o = .newWith none) ∧ v = d)) (h1 : s0.exec d o = some s1)
    (h : Cams.Runs d s1 l s) (hn : ∀ w, CamOp.change s0.intr.length w ∉ l) (hs : ∀ p, CamOp.setIntr s0.cams.length p ∉ l) :
    s.read s0.cams.length = some v := by
  have hg0 := (runs_frame h0 (by intro p hp; cases hp)).1
  have hs1 : s1 = ⟨s0.intr ++ [v], s0.cams ++ [s0.intr.length]⟩ := by
    rcases ho with ⟨p, rfl, hp⟩ | ⟨rfl | rfl, rfl⟩
    · simp only [Cams.exec, hp] at h1
      exact (Option.some.inj h1).symm
    · exact (Option.some.inj h1).symm
    · exact (Option.some.inj h1).symm
  subst hs1
  have hg1 : Cams.Good (⟨s0.intr ++ [v], s0.cams ++ [s0.intr.length]⟩ : Cams V) := by
    intro p hp
    rcases List.mem_append.1 hp with hp | hp
    · have := hg0 p hp
      simp; omega
    · simp at hp ⊢; omega
  obtain ⟨_, _, _, f1, f2⟩ := runs_frame h hg1
  have e1 := f1 s0.intr.length (by simp) hn
  have e2 := f2 s0.cams.length (by simp) hs
  unfold Cams.read
  rw [e2]
  simp only [List.getElem?_concat_length, Option.bind_some]
  rw [e1]
  simp

/-- A copy (or clone, or a camera made from a base class camera) shares the intrinsics with its original: both report the same, whatever is done, until
    one of them is given other intrinsics. -/
theorem C251_copy_shares {V : Type} {d : V} {l0 l : List (CamOp V)} {s0 s1 s : Cams V} {c : Nat} (h0 : Cams.Runs d ⟨[], []⟩ l0 s0) (hc : c < s0.cams.length)
    (h1 : s0.exec d (.copy c) = some s1) (h : Cams.Runs d s1 l s) (hs1 : ∀ p, CamOp.setIntr s0.cams.length p ∉ l) (hs2 : ∀ p, CamOp.setIntr c p ∉ l) :
    s.read s0.cams.length = s.read c := by
  have hg0 := (runs_frame h0 (by intro p hp; cases hp)).1
  have hc' : s0.cams[c]? = some s0.cams[c] := List.getElem?_eq_getElem hc
  simp only [Cams.exec, hc'] at h1
  obtain rfl := Option.some.inj h1
  have hg1 : Cams.Good (⟨s0.intr, s0.cams ++ [s0.cams[c]]⟩ : Cams V) := by
    intro p hp
    rcases List.mem_append.1 hp with hp | hp
    · exact hg0 p hp
    · rw [List.mem_singleton] at hp
      rw [hp]; exact hg0 _ (List.mem_of_getElem? hc')
  obtain ⟨_, _, _, _, f2⟩ := runs_frame h hg1
  have e1 := f2 s0.cams.length (by simp) hs1
  have e2 := f2 c (by simp; omega) hs2
  unfold Cams.read
  rw [e1, e2]
  simp only [List.getElem?_concat_length, List.getElem?_append_left hc, hc']

/-- A history: intrinsics shared by a camera, its copy and (as its own copy) a third one. -/
example : (Cams.run (0 : Int) ⟨[], []⟩ [.newIntr 7, .newWith (some 0), .copy 0, .newRef 0, .newWith none, .change 0 8]).map
    (fun s => (List.range 4).map s.read) = some [some 8, some 8, some 7, some 0] := by decide

example : ∃ s, Cams.Runs (0 : Int) ⟨[7, 7], [1]⟩ [.change 0 8, .newWith (some 0)] s ∧ s.read 0 = some 7 ∧ s.read 1 = some 8 :=
  ⟨_, .cons trivial rfl (.cons (show 0 < 2 by decide) rfl .nil), by decide, by decide⟩

/-- The camera made from intrinsics 0 keeps the value 7 when that object is changed. -/
example : ∃ s, Cams.Runs (0 : Int) ⟨[], []⟩ [.newIntr 7, .newRef 0, .change 0 8] s ∧ s.read 0 = some 7 := by
  refine ⟨⟨[8, 7], [1]⟩, .cons trivial rfl (.cons trivial rfl (.cons trivial rfl .nil)), ?_⟩
  exact C251_own_copy (d := 0) (l0 := [.newIntr 7]) (s0 := ⟨[7], []⟩) (s1 := ⟨[7, 7], [1]⟩) (o := .newRef 0) (l := [.change 0 8]) (.cons trivial rfl .nil)
    (.inl ⟨0, rfl, rfl⟩) rfl (.cons trivial rfl .nil) (by intro w h; simp at h) (by intro p h; simp at h)

end Vital.Conv
