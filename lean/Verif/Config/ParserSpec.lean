import Verif.Config.Props
import Verif.Config.Parser
/-
  What a config file means: the specification the parser theorems refer to.

  `CleansTo`, `LineIs`, `Lines` say what the text of a file is; `Exec` says what a file does to an abstract
  config.  Nothing here mentions the parser's state, tokens or buffers.
  Every text has a meaning (`lines_total` in ParserTotal.lean).
-/
namespace Vital.Parser
open Vital Vital.Config Vital.Expand Vital.Sys

/-! ### Text -/

def Blank (s : Str) : Prop := ∀ c ∈ s, isSpace c = true

/-- `c` is the line `l` without surrounding white space and without its comment. -/
def CleansTo (l c : Str) : Prop :=
  ∃ b1 b2 com : Str, l = b1 ++ c ++ b2 ++ com ∧ Blank b1 ∧ Blank b2 ∧ Trimmed c ∧ '#' ∉ c ∧
    (com = [] ∨ com.head? = some '#')

/-- Characters of keys and block names. -/
def wordChars : Str := letters ++ c!"0123456789-.:/_"

/-- A key or block name: at least three characters, begins with a letter, does not end in a colon. -/
def Key (k : Str) : Prop :=
  3 ≤ k.length ∧ (∃ a, k.head? = some a ∧ a ∈ letters) ∧ (∀ c ∈ k, c ∈ wordChars) ∧ k.getLast? ≠ some ':'

/-- Text that cannot continue a key: colons, then no character of a key. -/
def Delim (r : Str) : Prop := ∃ cs r', r = cs ++ r' ∧ (∀ c ∈ cs, c = ':') ∧ ∀ c, r'.head? = some c → c ∉ wordChars

def keywords : List Str := [c!"include", c!"block", c!"endblock", c!"relativepath"]

def FlagText (f : Str) : Prop := f ≠ [] ∧ ∀ c ∈ f, c ∈ letters ++ c!","

/-- A sequence of flags `[f]`, separated by optional white space. -/
inductive Flags : Str → List Str → Prop where
  | nil {sp} : Blank sp → Flags sp []
  | cons {sp f t fs} : Blank sp → FlagText f → Flags t fs → Flags (sp ++ c!"[" ++ f ++ c!"]" ++ t) (f :: fs)

/-- The flag that is known, in any case. -/
def IsRO (f : Str) : Prop := f = c!"RO" ∨ f = c!"Ro" ∨ f = c!"rO" ∨ f = c!"ro"

instance (f : Str) : Decidable (IsRO f) := by unfold IsRO; infer_instance

/-- What one line says. -/
inductive Directive where
  | entry (rel : Bool) (key : Str) (flags : List Str) (rhs : Str)
  | sym (name : Str) (flags : List Str) (rhs : Str)
  | block (name : Str)
  | endblock
  | incl (name : Str)
  | bad
  deriving DecidableEq

/-- What may precede a key: nothing, or `relativepath`. -/
def Lead (rel : Bool) (p : Str) : Prop :=
  match rel with
  | false => p = []
  | true => ∃ sp, Blank sp ∧ sp ≠ [] ∧ p = c!"relativepath" ++ sp

/-- No key, flag or assignment begins here. -/
def NoToken (l : Str) : Prop :=
  l.head? ≠ some '=' ∧ (∀ r, l ≠ c!":=" ++ r) ∧ (∀ f r, FlagText f → l ≠ c!"[" ++ f ++ c!"]" ++ r) ∧
  ∀ k r, Key k → l ≠ k ++ r

/-- Meaning of a line (white space and comment removed). -/
inductive LineIs : Str → Directive → Prop where
  /-- `[relativepath] key [flags] = value` -/
  | entry {rel p key fl flags v rhs} : Lead rel p → Key key → (rel = false → key ∉ keywords) →
      Flags fl flags → StripsTo v rhs → LineIs (p ++ key ++ fl ++ c!"=" ++ v) (.entry rel key flags rhs)
  /-- `name [flags] := value` -/
  | sym {rel p key fl flags v rhs} : Lead rel p → Key key → (rel = false → key ∉ keywords) →
      Flags fl flags → StripsTo v rhs → LineIs (p ++ key ++ fl ++ c!":=" ++ v) (.sym key flags rhs)
  /-- `block name`; anything after the name is ignored -/
  | block {sp name junk} : Blank sp → sp ≠ [] → Key name → Delim junk →
      LineIs (c!"block" ++ sp ++ name ++ junk) (.block name)
  /-- `endblock`; anything after it is ignored -/
  | endblock {junk} : Delim junk → LineIs (c!"endblock" ++ junk) .endblock
  /-- `include file` -/
  | incl {v name} : Delim v → StripsTo v name →
      LineIs (c!"include" ++ v) (.incl name)
  /-- a line that does not begin with a key (or a shorter or otherwise wrong one) -/
  | noToken {l} : l ≠ [] → NoToken l → LineIs l .bad
  /-- a line beginning with a flag -/
  | flagFirst {f r} : FlagText f → LineIs (c!"[" ++ f ++ c!"]" ++ r) .bad
  /-- a line beginning with an assignment -/
  | assignFirst {v t} : StripsTo v t → t ∉ keywords → LineIs (c!"=" ++ v) .bad
  | symFirst {v t} : StripsTo v t → t ∉ keywords → LineIs (c!":=" ++ v) .bad
  /-- a key (with flags) followed by something other than an assignment -/
  | noAssign {rel p key fl flags c t} : Lead rel p → Key key → (rel = false → key ∉ keywords) →
      Flags fl flags → isSpace c = false → Delim (fl ++ c :: t) → c ≠ '=' → (∀ r, c :: t ≠ c!":=" ++ r) →
      (∀ f r, FlagText f → c :: t ≠ c!"[" ++ f ++ c!"]" ++ r) → LineIs (p ++ key ++ fl ++ c :: t) .bad
  /-- `block` or `relativepath` followed by something that is not a name -/
  | noName {d sp c t} : d = c!"block" ∨ d = c!"relativepath" → Blank sp → isSpace c = false →
      Delim (sp ++ c :: t) → (∀ k r, Key k → c :: t ≠ k ++ r) → LineIs (d ++ sp ++ c :: t) .bad

/-- A line that says nothing yet: a directive without its name, or a key (with flags) without
    assignment. -/
inductive Incomplete : Str → Prop where
  | block : Incomplete (c!"block")
  | rel : Incomplete (c!"relativepath")
  | key {rel p key fl flags} : Lead rel p → Key key → (rel = false → key ∉ keywords) → Flags fl flags →
      Incomplete (p ++ key ++ fl)

/-- A peculiarity: `= directive` and `:= directive` count as the directive. -/
inductive Normal : Str → Str → Prop where
  | same {c} : Normal c c
  | assign {v k} : StripsTo v k → k ∈ keywords → Normal (c!"=" ++ v) k
  | symAssign {v k} : StripsTo v k → k ∈ keywords → Normal (c!":=" ++ v) k

/-- `Logical n c ls m d rest`: the text `c`, which ends on line `n`, continued if incomplete by the lines `ls`,
    says `d`; it ends on line `m` and the lines `rest` remain. -/
inductive Logical : Nat → Str → List Str → Nat → Directive → List Str → Prop where
  | whole {n c ls d} : LineIs c d → Logical n c ls n d ls
  | join {n c bl l c2 ls m d rest} : Incomplete c → (∀ x ∈ bl, CleansTo x []) → CleansTo l c2 → c2 ≠ [] →
      Logical (n + (bl.length + 1)) (c ++ c!" " ++ c2) ls m d rest → Logical n c (bl ++ l :: ls) m d rest
  | cut {n c ls} : Incomplete c → (∀ x ∈ ls, CleansTo x []) → Logical n c ls (n + ls.length) .bad []

/-- The lines of a file (after `n` earlier ones) with the 1-based numbers of the lines they end on; blank
    and comment lines do not count as lines but are numbered. -/
inductive Lines : Nat → List Str → List (Nat × Directive) → Prop where
  | nil {n} : Lines n [] []
  | skip {n l ls ds} : CleansTo l [] → Lines (n + 1) ls ds → Lines n (l :: ls) ds
  | line {n l ls c c' m d rest ds} : CleansTo l c → c ≠ [] → Normal c c' → Logical (n + 1) c' ls m d rest →
      Lines m rest ds → Lines n (l :: ls) ((m, d) :: ds)

/-- The text `c` consists of the lines `ls` (the last newline may be missing). -/
def TextIs (c : Str) (ls : List Str) : Prop :=
  (∀ l ∈ ls, '\n' ∉ l) ∧
  (c = (ls.map (· ++ ['\n'])).flatten ∨
   ∃ init last, ls = init ++ [last] ∧ last ≠ [] ∧ c = (init.map (· ++ ['\n'])).flatten ++ last)

/-! ### Effect -/

/-- An abstract config under construction: values, read-only marks, source locations, local symbols. -/
structure Env where
  val : Str → Option Str
  ro : Str → Bool
  loc : Str → Option Loc
  sym : Str → Option Str

def Env.empty : Env := ⟨fun _ => none, fun _ => false, fun _ => none, fun _ => none⟩

/-- What reading a line did: a definition (full key, final value, origin), a local symbol, or a syntax
    error. -/
inductive Stmt where
  | set (file : Str) (line : Nat) (key value : Str) (ro : Bool)
  | sym (name value : Str)
  | error (file : Str) (line : Nat)
  deriving DecidableEq

def Stmt.isError : Stmt → Bool
  | .error _ _ => true
  | _ => false

def Env.apply (e : Env) : Stmt → Env
  | .set f n k v r =>
    { e with
      val := fun k' => if k' = k then some v else e.val k'
      ro := fun k' => (decide (k' = k) && r) || e.ro k'
      loc := fun k' => if k' = k then some (f, (n : Int)) else e.loc k' }
  | .sym k v => { e with sym := fun k' => if k' = k then some v else e.sym k' }
  | .error _ _ => e

/-- What tokens in the text stand for at this point: environment variables, system facts, the values
    defined so far and the local symbols defined so far. -/
def symbols (w : World) (e : Env) : Types :=
  [(c!"CONFIG", e.val), (c!"ENV", w.env), (c!"LOCAL", e.sym), (c!"SYSENV", w.sysenv)]

/-- The text a right-hand side denotes: tokens are expanded, and a relative path is prefixed with the
    directory of the file it stands in. -/
def RhsText (w : World) (e : Env) (file : Str) (rel : Bool) (rhs x : Str) : Prop :=
  ∃ y, Expands (symbols w e) rhs y ∧ x = if rel then dirOf w file ++ c!"/" ++ y else y

/-- The prefix of keys inside the given open blocks, innermost first. -/
def blockPrefix : List Str → Str
  | [] => []
  | b :: bs => blockPrefix bs ++ b ++ c!":"

/-- How reading ends: at the end of the text, some blocks being open, or by an exception. -/
inductive Res where
  | done (opened : List Str)
  | thrown (e : PExc)

/-- Unknown flags are syntax errors. -/
def flagErrors (file : Str) (n : Nat) (flags : List Str) : List Stmt :=
  (flags.filter (fun f => decide (¬ IsRO f))).map (fun _ => .error file n)

/-- The include path is a file that can be read. -/
def ReadableFile (w : World) (path : Str) : Prop :=
  path ≠ [] ∧ w.readable path = true ∧ w.isDir path = false

/-- `Exec inc st ds e tr r e'`: reading the lines `ds` of the file at the head of `inc` (which was included
    by the next, and so on) with the blocks `st` open performs the definitions `tr` and turns `e` into
    `e'`. -/
inductive Exec (w : World) (search : List Str) :
    List Str → List Str → List (Nat × Directive) → Env → List Stmt → Res → Env → Prop where
  | nil {inc st e} : Exec w search inc st [] e [] (.done st) e
  | bad {file inc st n ds e tr r e'} : Exec w search (file :: inc) st ds e tr r e' →
      Exec w search (file :: inc) st ((n, .bad) :: ds) e (.error file n :: tr) r e'
  | entry {file inc st n rel key flags rhs ds e x v tr r e'} :
      RhsText w e file rel rhs x → StripsTo x v → e.ro (blockPrefix st ++ key) = false →
      Exec w search (file :: inc) st ds
        (e.apply (.set file n (blockPrefix st ++ key) v (flags.any (IsRO ·)))) tr r e' →
      Exec w search (file :: inc) st ((n, .entry rel key flags rhs) :: ds) e
        (flagErrors file n flags ++ .set file n (blockPrefix st ++ key) v (flags.any (IsRO ·)) :: tr) r e'
  | protectedEntry {file inc st n rel key flags rhs ds e x} :
      RhsText w e file rel rhs x → e.ro (blockPrefix st ++ key) = true →
      Exec w search (file :: inc) st ((n, .entry rel key flags rhs) :: ds) e (flagErrors file n flags)
        (.thrown (.config (.setRO (blockPrefix st ++ key) ((e.val (blockPrefix st ++ key)).getD []) x))) e
  | sym {file inc st n name flags rhs ds e x tr r e'} :
      Expands (symbols w e) rhs x → Exec w search (file :: inc) st ds (e.apply (.sym name x)) tr r e' →
      Exec w search (file :: inc) st ((n, .sym name flags rhs) :: ds) e
        (flagErrors file n flags ++ .sym name x :: tr) r e'
  | block {inc st n name ds e tr r e'} : Exec w search inc (name :: st) ds e tr r e' →
      Exec w search inc st ((n, .block name) :: ds) e tr r e'
  | endblock {inc name st n ds e tr r e'} : Exec w search inc st ds e tr r e' →
      Exec w search inc (name :: st) ((n, .endblock) :: ds) e tr r e'
  | strayEnd {file inc n ds e} :
      Exec w search (file :: inc) [] ((n, .endblock) :: ds) e [] (.thrown (.notParsed file)) e
  | incl {inc st n name y path c ls ds' ds e t1 st1 e1 t2 r e2} :
      Expands (symbols w e) name y → path = resolveFileName w search inc y → ReadableFile w path →
      w.content path = some c → TextIs c ls → Lines 0 ls ds' →
      Exec w search (path :: inc) st ds' e t1 (.done st1) e1 → Exec w search inc st1 ds e1 t2 r e2 →
      Exec w search inc st ((n, .incl name) :: ds) e (t1 ++ t2) r e2
  | inclThrows {inc st n name y path c ls ds' ds e t1 x e1} :
      Expands (symbols w e) name y → path = resolveFileName w search inc y → ReadableFile w path →
      w.content path = some c → TextIs c ls → Lines 0 ls ds' →
      Exec w search (path :: inc) st ds' e t1 (.thrown x) e1 →
      Exec w search inc st ((n, .incl name) :: ds) e t1 (.thrown x) e1
  | inclMissing {inc st n name y path ds e} :
      Expands (symbols w e) name y → path = resolveFileName w search inc y →
      (path = [] ∨ w.readable path = false) →
      Exec w search inc st ((n, .incl name) :: ds) e [] (.thrown (.notFound y)) e
  | inclNoFile {inc st n name y path ds e} :
      Expands (symbols w e) name y → path = resolveFileName w search inc y →
      path ≠ [] → w.readable path = true → (w.isDir path = true ∨ w.content path = none) →
      Exec w search inc st ((n, .incl name) :: ds) e [] (.thrown (.notFound path)) e

/-- What `parse_config( file )` reports: errors met and blocks left open make it throw. -/
def Res.outcome (file : Str) (tr : List Stmt) : Res → Except PExc Unit
  | .done st => if st = [] ∧ tr.any Stmt.isError = false then .ok () else .error (.notParsed file)
  | .thrown e => .error e

/-- The queries of config block `b` answer what `e` says; descriptions are empty. -/
def Shows (h : Heap) (b : Nat) (e : Env) : Prop := ∀ k,
  getValue h b k = (match e.val k with | some v => .ok v | none => .error (.noSuch k)) ∧
  hasValue h b k = .ok (e.val k).isSome ∧
  isReadOnly h b k = .ok (e.ro k) ∧ getLocation h b k = .ok (e.loc k) ∧
  getDescription h b k = (match e.val k with | some _ => .ok [] | none => .error (.noSuch k))

/-- Every file of the world consists of lines with a meaning. -/
def Described (w : World) : Prop :=
  ∀ path c, w.content path = some c → ∃ ls ds, TextIs c ls ∧ Lines 0 ls ds

end Vital.Parser
