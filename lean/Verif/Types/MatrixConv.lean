import Verif.Types.Conversions
/-
  Homographies, fundamental and essential matrices as values of the abstract base classes: clone, conversions between float and double, what the
  virtual functions answer (vital/types/homography.{h,cxx}, fundamental_matrix.{h,cxx}, essential_matrix.{h,cxx}); property C260.
  `F` is float, `D` is double; numbers and their operations are left open (the arithmetic of the machine, with its rounding).
-/
namespace Vital.Conv.Mat
open Vital Vital.Conv

/-- A 3x3 matrix, and what applying a conversion to each entry does. -/
structure M3 (T : Type) where
  at' : Fin 3 → Fin 3 → T

-- models: Eigen's Matrix::cast as used in vital/types/homography.cxx:109, 139, 195 and in the two other classes: entry by entry
def M3.cast {U T : Type} (c : U → T) (m : M3 U) : M3 T := ⟨fun i j => c (m.at' i j)⟩

/-- The arithmetic of one number type. -/
structure Ops (T : Type) where
  add : T → T → T
  mul : T → T → T
  div : T → T → T
  one : T
  /-- fabs(x) <= dummy_precision() -/
  tiny : T → Bool

-- models: vital/types/homography.cxx:50-62 (h_map_point); the row sums are evaluated from the left; `none` is point_maps_to_infinity
def mapPoint {T : Type} (o : Ops T) (h : M3 T) (p : T × T) : Option (T × T) :=
  let row := fun i => o.add (o.add (o.mul (h.at' i 0) p.1) (o.mul (h.at' i 1) p.2)) (o.mul (h.at' i 2) o.one)
  if o.tiny (row 2) = true then none else some (o.div (row 0) (row 2), o.div (row 1) (row 2))

/-- An object behind a pointer to the base class `homography` (or `fundamental_matrix`): its dynamic type and its matrix. -/
inductive Obj (F D : Type) where
  | flt (m : M3 F)
  | dbl (m : M3 D)

variable {F D : Type}

-- models: vital/types/homography.cxx:133-150, vital/types/fundamental_matrix.cxx:109-125 (matrix)
def matrix (n : Num F D) : Obj F D → M3 D
  | .flt m => m.cast n.up
  | .dbl m => m

-- models: vital/types/homography.cxx:187-208 (map and its specialisation)
def map (n : Num F D) (o : Ops D) : Obj F D → D × D → Option (D × D)
  | .flt m, p => mapPoint o (m.cast n.up) p
  | .dbl m, p => mapPoint o m p

-- models: vital/types/homography.cxx:123-130, vital/types/fundamental_matrix.cxx:100-107 (clone)
def clone : Obj F D → Obj F D
  | .flt m => .flt m
  | .dbl m => .dbl m

-- models: vital/types/homography.cxx:105-111, vital/types/fundamental_matrix.cxx:84-90 (constructor of the float class from the base class)
def toFloat (n : Num F D) (x : Obj F D) : Obj F D := .flt ((matrix n x).cast n.down)

-- models: vital/types/homography.cxx:114-120, vital/types/fundamental_matrix.cxx:92-98 (constructor of the double class from the base class)
def toDouble (n : Num F D) (x : Obj F D) : Obj F D := .dbl (matrix n x)

-- models: vital/types/homography.cxx:85-102, vital/types/fundamental_matrix.cxx:66-82 (copies within one class)
def copy : Obj F D → Obj F D
  | .flt m => .flt m
  | .dbl m => .dbl m

inductive Op where
  | clone
  | copy
  | toFloat
  | toDouble
deriving DecidableEq

def apply (n : Num F D) (x : Obj F D) : Op → Obj F D
  | .clone => clone x
  | .copy => copy x
  | .toFloat => toFloat n x
  | .toDouble => toDouble n x

def applyAll (n : Num F D) (x : Obj F D) (l : List Op) : Obj F D := l.foldl (apply n) x

/-! ### Specification -/

def IsFloat : Obj F D → Prop
  | .flt _ => True
  | .dbl _ => False

/-- The matrix that the object answers is `want`, and it maps every point as that matrix does in double arithmetic. -/
def Answers (n : Num F D) (o : Ops D) (x : Obj F D) (want : Fin 3 → Fin 3 → D) : Prop :=
  (∀ i j, (matrix n x).at' i j = want i j) ∧
  ∀ p : D × D, map n o x p =
    let w := o.add (o.add (o.mul (want 2 0) p.1) (o.mul (want 2 1) p.2)) (o.mul (want 2 2) o.one)
    if o.tiny w = true then none
    else some (o.div (o.add (o.add (o.mul (want 0 0) p.1) (o.mul (want 0 1) p.2)) (o.mul (want 0 2) o.one)) w,
               o.div (o.add (o.add (o.mul (want 1 0) p.1) (o.mul (want 1 1) p.2)) (o.mul (want 1 2) o.one)) w)

theorem answers_matrix (n : Num F D) (o : Ops D) (x : Obj F D) : Answers n o x (fun i j => (matrix n x).at' i j) := by
  refine ⟨fun _ _ => rfl, fun p => ?_⟩
  cases x <;> rfl

theorem matrix_toFloat_float (n : Num F D) (m : M3 F) : matrix n (toFloat n (.flt m)) = matrix n (.flt m) := by
  simp [matrix, toFloat, M3.cast, n.down_up]

/-- What the matrix becomes: rounded to float from the first conversion of a double to float on. -/
def rounded (n : Num F D) (x : D) : D := n.up (n.down x)

theorem rounded_idem (n : Num F D) (x : D) : rounded n (rounded n x) = rounded n x := by simp [rounded, n.down_up]

theorem matrix_apply (n : Num F D) (x : Obj F D) (op : Op) (i j : Fin 3) :
    (matrix n (apply n x op)).at' i j = if op = .toFloat then rounded n ((matrix n x).at' i j) else (matrix n x).at' i j := by
  cases op <;> cases x <;> simp [apply, clone, copy, toFloat, toDouble, matrix, M3.cast, rounded]

/-- **C260**: whatever clones, copies and conversions are made of a homography or fundamental matrix, the last object answers the matrix of the first -
with each entry rounded to float once if there was a conversion to float, and exactly otherwise - and maps points by that matrix in double
arithmetic. -/
theorem C260_history (n : Num F D) (o : Ops D) (x : Obj F D) (l : List Op) :
    Answers n o (applyAll n x l)
      (fun i j => if Op.toFloat ∈ l then n.up (n.down ((matrix n x).at' i j)) else (matrix n x).at' i j) := by
  have key : ∀ (l : List Op) (x : Obj F D) (i j : Fin 3), (matrix n (applyAll n x l)).at' i j =
      if Op.toFloat ∈ l then rounded n ((matrix n x).at' i j) else (matrix n x).at' i j := by
    intro l
    induction l with
    | nil => intro x i j; simp [applyAll]
    | cons op l ih =>
      intro x i j
      have : applyAll n x (op :: l) = applyAll n (apply n x op) l := rfl
      rw [this, ih, matrix_apply]
      by_cases h1 : op = .toFloat
      · subst h1
        by_cases h2 : Op.toFloat ∈ l <;> simp [h2, rounded_idem]
      · have h1' : ¬ Op.toFloat = op := fun h => h1 h.symm
        by_cases h2 : Op.toFloat ∈ l <;> simp [h1, h1', h2]
  have h := answers_matrix n o (applyAll n x l)
  rw [show (fun i j => if Op.toFloat ∈ l then n.up (n.down ((matrix n x).at' i j)) else (matrix n x).at' i j) =
    (fun i j => (matrix n (applyAll n x l)).at' i j) from by funext i j; rw [key]; rfl]
  exact h

/-- **C260** (from float): what started as a float object answers the same through every such history, and comes back as the same float object. -/
theorem C260_from_float (n : Num F D) (o : Ops D) (m : M3 F) (l : List Op) :
    Answers n o (applyAll n (.flt m) l) (fun i j => n.up (m.at' i j)) ∧ toFloat n (applyAll n (.flt m) l) = .flt m := by
  have h := C260_history n o (.flt m) l
  have h2 : (fun i j => if Op.toFloat ∈ l then n.up (n.down ((matrix n (.flt m)).at' i j)) else (matrix n (.flt m)).at' i j) =
      (fun i j => n.up (m.at' i j)) := by
    funext i j
    by_cases hm : Op.toFloat ∈ l <;> simp [hm, matrix, M3.cast, n.down_up]
  rw [h2] at h
  refine ⟨h, ?_⟩
  have h3 := h.1
  unfold toFloat M3.cast
  congr 1
  cases m with
  | mk at' => congr 1; funext i j; rw [h3, n.down_up]

/-- **C260** (dynamic type): clones and copies have the class of the original, conversions the class that was named. -/
theorem C260_class (n : Num F D) (x : Obj F D) :
    (IsFloat (clone x) ↔ IsFloat x) ∧ (IsFloat (copy x) ↔ IsFloat x) ∧ IsFloat (toFloat n x) ∧ ¬ IsFloat (toDouble n x) := by
  cases x <;> simp [clone, copy, IsFloat, toFloat, toDouble]

/-! ### Essential matrices: the rotation (a quaternion) and the translation -/

structure Ess (T : Type) where
  rot : Fin 4 → T
  trans : Fin 3 → T

inductive EObj (F D : Type) where
  | flt (e : Ess F)
  | dbl (e : Ess D)

-- models: vital/types/essential_matrix.cxx:158-165 (rotation)
def rotation (n : Num F D) : EObj F D → Fin 4 → D
  | .flt e => fun i => n.up (e.rot i)
  | .dbl e => e.rot

-- models: vital/types/essential_matrix.cxx:176-183 (translation)
def translation (n : Num F D) : EObj F D → Fin 3 → D
  | .flt e => fun i => n.up (e.trans i)
  | .dbl e => e.trans

-- models: vital/types/essential_matrix.cxx:93-138 (copies, conversions from the base class, clone)
def applyE (n : Num F D) (x : EObj F D) : Op → EObj F D
  | .clone => x
  | .copy => x
  | .toFloat => .flt ⟨fun i => n.down (rotation n x i), fun i => n.down (translation n x i)⟩
  | .toDouble => .dbl ⟨rotation n x, translation n x⟩

def applyAllE (n : Num F D) (x : EObj F D) (l : List Op) : EObj F D := l.foldl (applyE n) x

/-- **C260** (essential matrices): through all clones, copies and conversions the rotation and the translation stay as they are, but for being rounded
to float once if there was a conversion to float. -/
theorem C260_essential (n : Num F D) (x : EObj F D) (l : List Op) :
    (∀ i, rotation n (applyAllE n x l) i = if Op.toFloat ∈ l then n.up (n.down (rotation n x i)) else rotation n x i) ∧
    (∀ i, translation n (applyAllE n x l) i = if Op.toFloat ∈ l then n.up (n.down (translation n x i)) else translation n x i) := by
  induction l generalizing x with
  | nil => simp [applyAllE]
  | cons op l ih =>
    have e : applyAllE n x (op :: l) = applyAllE n (applyE n x op) l := rfl
    rw [e]
    obtain ⟨h1, h2⟩ := ih (applyE n x op)
    constructor
    · intro i
      rw [h1]
      cases op <;> by_cases hm : Op.toFloat ∈ l <;> simp [hm, applyE, rotation, n.down_up]
    · intro i
      rw [h2]
      cases op <;> by_cases hm : Op.toFloat ∈ l <;> simp [hm, applyE, translation, n.down_up]

-- numbers with one decimal place as doubles, whole numbers as floats: a conversion to float rounds
example : (matrix (F := Nat) (D := Nat) ⟨fun x => 10 * x, fun x => x / 10, fun x => by omega⟩
    (applyAll ⟨fun x => 10 * x, fun x => x / 10, fun x => by omega⟩ (.dbl ⟨fun i j => 17 * i.val + j.val⟩) [.toDouble, .toFloat, .clone])).at' 2 1 = 30 := by
  decide +kernel

end Vital.Conv.Mat
