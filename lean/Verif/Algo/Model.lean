import Verif.Config.Props
/-
  Model of the algorithm registry and of nested algorithm configuration
  (vital/registrar.h, vital/algo/algorithm.{h,cxx,txx}).

  Algorithm objects live in their own heap (`St.objs`); an address is an index and is never reused, a
  `shared_ptr` is an `Option Nat`.  The three virtual functions that plugins implement
  (`get_configuration`, `set_configuration`, `check_configuration`) are parameters: arbitrary functions
  of the whole state.  Not modelled: logging, the separate registrar a plugin may be handed.
-/
namespace Vital.Algo
open Vital Vital.Config

/-- An algorithm object: the abstract class it implements (`Self` of `algorithm_def<Self>`), its
    `impl_name()`, `description()` and the rest of its members. -/
structure Inst (δ : Type) where
  cls   : Nat
  impl  : Str
  descr : Str
  data  : δ
  deriving DecidableEq, Repr

/-- Program state: config blocks, algorithm objects, and the item maps of the registrar, one for
    `algorithm` and one for each abstract class. -/
-- models: vital/registrar.h:165-175 (get_item_map: one static map for each type)
structure St (δ : Type) where
  cfg   : Heap
  objs  : List (Inst δ)
  quals : OMap Str Nat
  byCls : Nat → OMap Str Nat

/-- What the program links against: the type name of each abstract class and the virtual functions,
    dispatched on the object at an address. -/
structure Lib (δ : Type) where
  /-- `Self::static_type_name()` -/
  typeName : Nat → Str
  getCfg   : St δ → Nat → St δ × Except Exc Nat
  setCfg   : St δ → Nat → Nat → St δ × Except Exc Unit
  checkCfg : St δ → Nat → Nat → St δ × Except Exc Bool

variable {δ : Type}

/-- The initial state. -/
def St.init : St δ := { cfg := [], objs := [], quals := [], byCls := fun _ => [] }

/-- `type_name + ":" + impl_name`. -/
def qualified (t i : Str) : Str := t ++ c!":" ++ i

-- models: vital/registrar.h:96-116 (register_item<algorithm>): null is refused, an existing entry is
-- overwritten
def registerQual (s : St δ) (name : Str) (item : Option Nat) : St δ × Bool :=
  match item with
  | none => (s, false)
  | some a => ({ s with quals := s.quals.insert name a }, true)

-- models: vital/registrar.h:96-116 (register_item<Self>)
def registerCls (s : St δ) (c : Nat) (name : Str) (item : Option Nat) : St δ × Bool :=
  match item with
  | none => (s, false)
  | some a => ({ s with byCls := fun c' => if c' = c then (s.byCls c).insert name a else s.byCls c' }, true)

-- models: vital/algo/algorithm.txx:52-66 (algorithm_def<Self>::register_instance)
def registerInstance (L : Lib δ) (s : St δ) (inst : Option Nat) : St δ × Except Exc Bool :=
  match inst with
  | none => (s, .ok false)
  | some a =>
    match s.objs[a]? with
    | none => (s, .error .ub)
    | some o =>
      match registerQual s (qualified (L.typeName o.cls) o.impl) inst with
      | (s1, false) => (s1, .ok false)
      | (s1, true) => let (s2, r) := registerCls s1 o.cls o.impl inst; (s2, .ok r)

-- models: vital/algo/algorithm.h:374-384 (base_clone, clone): a copy at a new address
def cloneObj (s : St δ) (a : Nat) : St δ × Except Exc Nat :=
  match s.objs[a]? with
  | none => (s, .error .ub)
  | some o => ({ s with objs := s.objs ++ [o] }, .ok s.objs.length)

-- models: vital/algo/algorithm.cxx:73-87 (algorithm::create)
def create (s : St δ) (t i : Str) : St δ × Except Exc (Option Nat) :=
  match s.quals.find? (qualified t i) with
  | none => (s, .ok none)
  | some a =>
    match cloneObj s a with
    | (s', .error e) => (s', .error e)
    | (s', .ok n) => (s', .ok (some n))

-- models: vital/algo/algorithm.txx:69-84 (algorithm_def<Self>::create); the dynamic cast of a clone of
-- a `Self` to `Self` cannot fail
def createCls (s : St δ) (c : Nat) (i : Str) : St δ × Except Exc (Option Nat) :=
  match (s.byCls c).find? i with
  | none => (s, .ok none)
  | some a =>
    match cloneObj s a with
    | (s', .error e) => (s', .error e)
    | (s', .ok n) => (s', .ok (some n))

-- models: vital/algo/algorithm.cxx:91-114 (algorithm::registered_names) and vital/registrar.h:119-135
def registeredNames (s : St δ) (t : Str) : List Str :=
  if t = [] then s.quals.keys
  else
    let pfx := t ++ c!":"
    (s.quals.keys.filter (fun q => decide (pfx.length ≤ q.length) && startsWith q pfx)).map
      (fun q => q.drop pfx.length)

-- models: vital/algo/algorithm.txx:87-94 (algorithm_def<Self>::registered_names)
def registeredNamesCls (s : St δ) (c : Nat) : List Str := (s.byCls c).keys

-- models: vital/algo/algorithm.cxx:118-125 (has_type_name)
def hasTypeName (s : St δ) (t : Str) : Bool := !(registeredNames s t).isEmpty

-- models: vital/algo/algorithm.cxx:129-138 (has_impl_name)
def hasImplName (s : St δ) (t i : Str) : Bool := (registeredNames s t).contains i

-- models: vital/algo/algorithm.txx:97-107 (algorithm_def<Self>::has_impl_name)
def hasImplNameCls (s : St δ) (c : Nat) (i : Str) : Bool := (registeredNamesCls s c).contains i

/-! ### Nested algorithms -/

/-- The loop that lists the registered implementations in a comment. -/
-- models: vital/algo/algorithm.cxx:155-164; `find(..)->description()` on a null pointer is undefined
def commentLoop (s : St δ) (t : Str) : List Str → Str → Except Exc Str
  | [], acc => .ok acc
  | r :: rs, acc =>
    match s.quals.find? (qualified t r) with
    | none => .error .ub
    | some a =>
      match s.objs[a]? with
      | none => .error .ub
      | some o =>
        commentLoop s t rs (acc ++ c!"\n\t- " ++ r ++
          (if o.descr ≠ [] then c!" :: " ++ o.descr else []))

-- models: vital/algo/algorithm.cxx:149-164 (type_comment)
def typeComment (s : St δ) (t name : Str) : Except Exc Str :=
  commentLoop s t (registeredNames s t)
    (c!"Algorithm to use for '" ++ name ++ c!"'.\nMust be one of the following options:")

-- models: vital/algo/algorithm.cxx:169,177,194 (name + block_sep + "type")
def typeKey (name : Str) : Str := name ++ blockSep ++ c!"type"

-- models: vital/algo/algorithm.cxx:142-180 (get_nested_algo_configuration).  `subblock_view` is
-- evaluated before `get_configuration`; the language leaves that order open, and it matters only for
-- which exception is seen first
def getNested (L : Lib δ) (s : St δ) (t name : Str) (config : Nat) (algo : Option Nat) :
    St δ × Except Exc Unit :=
  match typeComment s t name with
  | .error e => (s, .error e)
  | .ok comment =>
    match algo with
    | some a =>
      match s.objs[a]? with
      | none => (s, .error .ub)
      | some o =>
        match setValue s.cfg config (typeKey name) o.impl comment with
        | (h1, .error e) => ({ s with cfg := h1 }, .error e)
        | (h1, .ok ()) =>
          match subblockView h1 config (name ++ blockSep ++ o.impl) with
          | (h2, .error e) => ({ s with cfg := h2 }, .error e)
          | (h2, .ok v) =>
            match L.getCfg { s with cfg := h2 } a with
            | (s3, .error e) => (s3, .error e)
            | (s3, .ok k) =>
              match mergeConfig s3.cfg v k with
              | (h4, r) => ({ s3 with cfg := h4 }, r)
    | none =>
      match hasValue s.cfg config (typeKey name) with
      | .error e => (s, .error e)
      | .ok true => (s, .ok ())
      | .ok false =>
        match setValue s.cfg config (typeKey name) [] comment with
        | (h1, r) => ({ s with cfg := h1 }, r)

-- models: vital/algo/algorithm.cxx:183-205 (set_nested_algo_configuration): the new value of the
-- reference argument `nested_algo` is returned beside the outcome, because it is assigned before
-- `set_configuration` may throw
def setNested (L : Lib δ) (s : St δ) (t name : Str) (config : Nat) (algo : Option Nat) :
    St δ × Option Nat × Except Exc Unit :=
  match hasValue s.cfg config (typeKey name) with
  | .error e => (s, algo, .error e)
  | .ok false => (s, algo, .ok ())
  | .ok true =>
    match getValue s.cfg config (typeKey name) with
    | .error e => (s, algo, .error e)
    | .ok iname =>
      if hasImplName s t iname then
        match create s t iname with
        | (s1, .error e) => (s1, algo, .error e)
        | (s1, .ok none) => (s1, none, .error .ub)
        | (s1, .ok (some n)) =>
          match subblockView s1.cfg config (name ++ blockSep ++ iname) with
          | (h2, .error e) => ({ s1 with cfg := h2 }, some n, .error e)
          | (h2, .ok v) =>
            match L.setCfg { s1 with cfg := h2 } n v with
            | (s3, r) => (s3, some n, r)
      else (s, algo, .ok ())

-- models: vital/algo/algorithm.cxx:209-254 (check_nested_algo_configuration)
def checkNested (L : Lib δ) (s : St δ) (t name : Str) (config : Nat) : St δ × Except Exc Bool :=
  match hasValue s.cfg config (typeKey name) with
  | .error e => (s, .error e)
  | .ok false => (s, .ok false)
  | .ok true =>
    match getValue s.cfg config (typeKey name) with
    | .error e => (s, .error e)
    | .ok iname =>
      if hasImplName s t iname then
        match subblockView s.cfg config (name ++ blockSep ++ iname) with
        | (h2, .error e) => ({ s with cfg := h2 }, .error e)
        | (h2, .ok v) =>
          match s.quals.find? (qualified t iname) with
          | none => ({ s with cfg := h2 }, .error .ub)
          | some a => L.checkCfg { s with cfg := h2 } a v
      else (s, .ok false)

-- models: vital/algo/algorithm.txx:142-155 (algorithm_def<Self>::set_nested_algo_configuration): the
-- reference is assigned only when the call below returned; the cast yields null for another class
def setNestedCls (L : Lib δ) (s : St δ) (c : Nat) (name : Str) (config : Nat) (algo : Option Nat) :
    St δ × Option Nat × Except Exc Unit :=
  match setNested L s (L.typeName c) name config algo with
  | (s', _, .error e) => (s', algo, .error e)
  | (s', p, .ok ()) =>
    (s', (match p with
          | none => none
          | some n => match s'.objs[n]? with
            | none => none
            | some o => if o.cls = c then some n else none), .ok ())

/-- The loop of `get_impl_configurations`. -/
-- models: vital/algo/algorithm.txx:118-125
def implCfgLoop (L : Lib δ) (c config : Nat) : List Str → St δ → St δ × Except Exc Unit
  | [], s => (s, .ok ())
  | i :: is, s =>
    match subblockView s.cfg config i with
    | (h1, .error e) => ({ s with cfg := h1 }, .error e)
    | (h1, .ok v) =>
      match (s.byCls c).find? i with
      | none => ({ s with cfg := h1 }, .error .ub)
      | some a =>
        match L.getCfg { s with cfg := h1 } a with
        | (s2, .error e) => (s2, .error e)
        | (s2, .ok k) =>
          match mergeConfig s2.cfg v k with
          | (h3, .error e) => ({ s2 with cfg := h3 }, .error e)
          | (h3, .ok ()) => implCfgLoop L c config is { s2 with cfg := h3 }

-- models: vital/algo/algorithm.txx:110-128 (get_impl_configurations)
def implConfigs (L : Lib δ) (s : St δ) (c : Nat) : St δ × Except Exc Nat :=
  match implCfgLoop L c s.cfg.length (registeredNamesCls s c)
      { s with cfg := s.cfg ++ [mkBlock [] none] } with
  | (s', .error e) => (s', .error e)
  | (s', .ok ()) => (s', .ok s.cfg.length)

-- models: vital/algo/algorithm.cxx:63-69 (algorithm::get_configuration, the default)
def defaultGetCfg (L : Lib δ) (s : St δ) (a : Nat) : St δ × Except Exc Nat :=
  match s.objs[a]? with
  | none => (s, .error .ub)
  | some o =>
    match emptyConfig s.cfg (L.typeName o.cls) with
    | (h, r) => ({ s with cfg := h }, r)

/-! ### Histories of the registry -/

/-- One step of a program that uses the registry. -/
inductive AOp (δ : Type) where
  /-- the program constructs an algorithm object -/
  | new (o : Inst δ)
  /-- the program changes the members of an object it holds -/
  | write (a : Nat) (data : δ)
  | register (inst : Option Nat)
  | create (t i : Str)
  | createCls (c : Nat) (i : Str)

def step (L : Lib δ) (s : St δ) : AOp δ → St δ
  | .new o => { s with objs := s.objs ++ [o] }
  | .write a d =>
    match s.objs[a]? with
    | none => s
    | some o => { s with objs := s.objs.set a { o with data := d } }
  | .register i => (registerInstance L s i).1
  | .create t i => (create s t i).1
  | .createCls c i => (createCls s c i).1

def run (L : Lib δ) (ops : List (AOp δ)) : St δ := ops.foldl (step L) St.init

/-- The type names of the abstract classes of the library, one for each header in vital/algo. -/
-- models: vital/algo/analyze_tracks.h:62, bundle_adjust.h:58, close_loops.h:65,
-- compute_ref_homography.h:67, convert_image.h:52, detect_features.h:54, draw_tracks.h:61,
-- estimate_essential_matrix.h:60, estimate_fundamental_matrix.h:59, estimate_homography.h:60,
-- estimate_similarity_transform.h:64, extract_descriptors.h:56, filter_features.h:61, geo_map.h:55,
-- image_io.h:63, initialize_cameras_landmarks.h:58, match_features.h:56, optimize_cameras.h:59,
-- track_features.h:56, triangulate_landmarks.h:58 (static_type_name)
def vitalTypeNames : List Str :=
  [c!"analyze_tracks", c!"bundle_adjust", c!"close_loops", c!"compute_ref_homography",
   c!"convert_image", c!"detect_features", c!"draw_tracks", c!"estimate_essential_matrix",
   c!"estimate_fundamental_matrix", c!"estimate_homography", c!"estimate_similarity_transform",
   c!"extract_descriptors", c!"filter_features", c!"geo_map", c!"image_io",
   c!"initialize_cameras_landmarks", c!"match_features", c!"optimize_cameras", c!"track_features",
   c!"triangulate_landmarks"]

end Vital.Algo
