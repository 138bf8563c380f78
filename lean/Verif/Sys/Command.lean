import Verif.Basic.Str
import Mathlib.Data.List.Induction
/-
  Model of vital/kwiversys/System.c (kwsysSystem_Parse_CommandForUnix); property C146.

  Memory exhaustion is not modelled.  `none` is undefined behaviour: a store outside a buffer, or overflow of a buffer size (`int`).
-/
namespace Vital.Command

/-! ### The code -/

/-- A growing array: what is between begin and end, and the capacity. -/
structure Grow (α : Type) where
  items : List α
  size : Nat

/-- Make room, then store at the end. -/
-- models: vital/kwiversys/System.c:35-60 (kwsysSystem__AppendByte), 75-93 and 101-103 (the pointers in kwsysSystem__AppendArgument)
def Grow.push {α : Type} (b : Grow α) (x : α) : Option (Grow α) :=
  let b1 : Option (Grow α) :=
    if b.items.length ≥ b.size then
      if b.size * 2 < 2 ^ 31 then
        -- memcpy of the old items into the new array
        if b.items.length ≤ b.size * 2 then some ⟨b.items, b.size * 2⟩ else none
      else none
    else some b
  b1.bind fun b => if b.items.length < b.size then some { b with items := b.items ++ [x] } else none

structure St where
  args : Grow Str
  buf : Grow Char
  inArgument : Bool
  inEscape : Bool
  inSingle : Bool
  inDouble : Bool

-- models: vital/kwiversys/System.c:63-109 (kwsysSystem__AppendArgument): the copy of the argument has its final NUL
def St.finishArg (s : St) : Option St :=
  (s.buf.push (Char.ofNat 0)).bind fun b => (s.args.push b.items).map fun a => { s with args := a, buf := { b with items := [] } }

def St.byte (s : St) (c : Char) : Option St := (s.buf.push c).map fun b => { s with buf := b }

-- models: vital/kwiversys/System.c:136-231 (the loop body)
def step (s : St) (c : Char) : Option St :=
  if s.inEscape then (St.byte { s with inArgument := true } c).map fun s => { s with inEscape := false }
  else if c = '\\' then some { s with inEscape := true }
  else if c = '\'' ∧ s.inDouble = false then
    if s.inSingle then some { s with inSingle := false } else some { s with inSingle := true, inArgument := true }
  else if c = '"' ∧ s.inSingle = false then
    if s.inDouble then some { s with inDouble := false } else some { s with inDouble := true, inArgument := true }
  else if isSpace c then
    if s.inArgument then
      if s.inSingle || s.inDouble then s.byte c else s.finishArg.map fun s => { s with inArgument := false }
    else some s
  else St.byte { s with inArgument := true } c

def steps : St → Str → Option St
  | s, [] => some s
  | s, c :: l => (step s c).bind fun s => steps s l

-- models: vital/kwiversys/System.c:112-132
def start : St := ⟨⟨[], 32⟩, ⟨[], 1024⟩, false, false, false, false⟩

/-- The result array without its final NULL; each argument is given with its final NUL. -/
-- models: vital/kwiversys/System.c:114-288 (kwsysSystem__ParseUnixCommand); the string ends at its first NUL
def parse (command : Str) : Option (List Str) :=
  (steps start command).bind fun s => (if s.inArgument then s.finishArg else some s).map fun s => s.args.items

-- models: vital/kwiversys/System.c:291-301 (kwsysSystem_Parse_CommandForUnix); `some none` is the NULL result
def parseCommand (command : Str) (flags : Int) : Option (Option (List Str)) :=
  if flags ≠ 0 then some none else (parse command).map some

/-! ### Specification: what a command line says -/

inductive Quote where | single | double
  deriving DecidableEq

def Quote.mark : Quote → Char
  | .single => '\'' | .double => '"'

/-- A character inside quotes, perhaps written with a backslash. -/
structure QChar where
  escaped : Bool
  c : Char

inductive Piece where
  /-- a character written as such -/
  | plain (c : Char)
  /-- a backslash and any character -/
  | esc (c : Char)
  /-- a text in quotes; the closing quote may be missing (only at the end of the line) -/
  | quoted (q : Quote) (l : List QChar) (closed : Bool)

def QChar.text (x : QChar) : Str := if x.escaped then ['\\', x.c] else [x.c]

def Piece.text : Piece → Str
  | .plain c => [c]
  | .esc c => ['\\', c]
  | .quoted q l closed => q.mark :: l.flatMap QChar.text ++ (if closed then [q.mark] else [])

def Piece.value : Piece → Str
  | .plain c => [c]
  | .esc c => [c]
  | .quoted _ l _ => l.map QChar.c

def Piece.isOpen : Piece → Bool
  | .quoted _ _ closed => !closed
  | _ => false

/-- Without a backslash, neither the quotation mark nor a backslash can stand inside quotes. -/
def QChar.Ok (q : Quote) (x : QChar) : Prop := x.escaped = false → x.c ≠ q.mark ∧ x.c ≠ '\\'

def Piece.Ok : Piece → Prop
  | .plain c => isSpace c = false ∧ c ≠ '\\' ∧ c ≠ '\'' ∧ c ≠ '"'
  | .esc _ => True
  | .quoted q l _ => ∀ x ∈ l, x.Ok q

/-- An argument: the space before it and at least one piece, no space between the pieces. -/
structure Arg where
  gap : Str
  pieces : List Piece

def Arg.text (a : Arg) : Str := a.gap ++ a.pieces.flatMap Piece.text
def Arg.value (a : Arg) : Str := a.pieces.flatMap Piece.value

structure Arg.Ok (a : Arg) : Prop where
  gap : ∀ c ∈ a.gap, isSpace c = true
  some : a.pieces ≠ []
  pieces : ∀ p ∈ a.pieces, p.Ok

/-- A command line: arguments, space after them, perhaps a backslash with nothing after it. -/
structure Line where
  args : List Arg
  space : Str
  backslash : Bool

def Line.text (l : Line) : Str := l.args.flatMap Arg.text ++ l.space ++ (if l.backslash then ['\\'] else [])

/-- Arguments are separated by space; a quote is left open only at the very end. -/
structure Line.Ok (l : Line) : Prop where
  args : ∀ a ∈ l.args, a.Ok
  gaps : ∀ a ∈ l.args.tail, a.gap ≠ []
  space : ∀ c ∈ l.space, isSpace c = true
  closed : ∀ p ∈ (l.args.flatMap Arg.pieces).dropLast, p.isOpen = false
  last : ∀ p, (l.args.flatMap Arg.pieces).getLast? = some p → p.isOpen = true → l.space = []

/-! ### Proof: without the buffers -/

structure A where
  args : List Str
  buf : Str
  arg : Bool
  esc : Bool
  sgl : Bool
  dbl : Bool
  deriving DecidableEq

def A.finish (s : A) : A := { s with args := s.args ++ [s.buf ++ [Char.ofNat 0]], buf := [] }

def astep (s : A) (c : Char) : A :=
  if s.esc then { s with arg := true, buf := s.buf ++ [c], esc := false }
  else if c = '\\' then { s with esc := true }
  else if c = '\'' ∧ s.dbl = false then
    if s.sgl then { s with sgl := false } else { s with sgl := true, arg := true }
  else if c = '"' ∧ s.sgl = false then
    if s.dbl then { s with dbl := false } else { s with dbl := true, arg := true }
  else if isSpace c then
    if s.arg then
      if s.sgl || s.dbl then { s with buf := s.buf ++ [c] } else { s.finish with arg := false }
    else s
  else { s with arg := true, buf := s.buf ++ [c] }

def St.abs (s : St) : A := ⟨s.args.items, s.buf.items, s.inArgument, s.inEscape, s.inSingle, s.inDouble⟩

structure Fits (s : St) (n : Nat) : Prop where
  abuf : s.buf.items.length ≤ s.buf.size
  aargs : s.args.items.length ≤ s.args.size
  sbuf : 0 < s.buf.size
  sargs : 0 < s.args.size
  nbuf : s.buf.items.length ≤ n
  nargs : s.args.items.length ≤ n

theorem push_ok {α : Type} (b : Grow α) (x : α) (h1 : b.items.length ≤ b.size) (h2 : 0 < b.size) (h3 : b.items.length < 2 ^ 30) :
    ∃ b', b.push x = some b' ∧ b'.items = b.items ++ [x] ∧ b'.items.length ≤ b'.size ∧ 0 < b'.size := by
  unfold Grow.push
  by_cases h : b.items.length ≥ b.size
  · simp only [h, ↓reduceIte, show b.size * 2 < 2 ^ 31 by omega, show b.items.length ≤ b.size * 2 by omega, Option.bind_some, show b.items.length < b.size * 2 by omega]
    exact ⟨_, rfl, rfl, by simp; omega, by simp; omega⟩
  · simp only [h, ↓reduceIte, Option.bind_some, show b.items.length < b.size by omega]
    exact ⟨_, rfl, rfl, by simp; omega, h2⟩

theorem byte_ok (s : St) (n : Nat) (c : Char) (h : Fits s n) (hn : n < 2 ^ 30) :
    ∃ s', s.byte c = some s' ∧ s'.abs = { s.abs with buf := s.abs.buf ++ [c] } ∧ Fits s' (n + 1) := by
  have := h.nbuf
  obtain ⟨b', h1, h2, h3, h4⟩ := push_ok s.buf c h.abuf h.sbuf (by omega)
  refine ⟨{ s with buf := b' }, by simp [St.byte, h1], by simp [St.abs, h2], ⟨h3, h.aargs, h4, h.sargs, ?_, ?_⟩⟩
  · rw [h2]; simp; omega
  · have := h.nargs; simp; omega

theorem finish_ok (s : St) (n : Nat) (h : Fits s n) (hn : n < 2 ^ 30) :
    ∃ s', s.finishArg = some s' ∧ s'.abs = s.abs.finish ∧ Fits s' (n + 1) := by
  have := h.nbuf
  have := h.nargs
  obtain ⟨b', h1, h2, h3, h4⟩ := push_ok s.buf (Char.ofNat 0) h.abuf h.sbuf (by omega)
  obtain ⟨a', h5, h6, h7, h8⟩ := push_ok s.args b'.items h.aargs h.sargs (by omega)
  refine ⟨{ s with args := a', buf := { b' with items := [] } }, by simp [St.finishArg, h1, h5], by simp [St.abs, A.finish, h2, h6], ⟨?_, h7, h4, h8, ?_, ?_⟩⟩
  · simp
  · simp
  · rw [h6]; simp; omega

theorem Fits.mono {s : St} {n : Nat} (h : Fits s n) : Fits s (n + 1) := ⟨h.abuf, h.aargs, h.sbuf, h.sargs, by have := h.nbuf; omega, by have := h.nargs; omega⟩

theorem step_ok (s : St) (n : Nat) (c : Char) (h : Fits s n) (hn : n < 2 ^ 30) : ∃ s', step s c = some s' ∧ s'.abs = astep s.abs c ∧ Fits s' (n + 1) := by
  obtain ⟨args, buf, ia, ie, is_, id_⟩ := s
  rw [show St.abs ⟨args, buf, ia, ie, is_, id_⟩ = ⟨args.items, buf.items, ia, ie, is_, id_⟩ from rfl]
  unfold step astep
  cases ie
  · simp only [Bool.false_eq_true, ↓reduceIte]
    by_cases e1 : c = '\\'
    · simp only [e1, ↓reduceIte]; exact ⟨_, rfl, rfl, ⟨h.mono.1, h.mono.2, h.mono.3, h.mono.4, h.mono.5, h.mono.6⟩⟩
    rw [if_neg e1, if_neg e1]
    by_cases e2 : c = '\'' ∧ id_ = false
    · rw [if_pos e2, if_pos e2]
      cases is_
      · exact ⟨_, rfl, rfl, ⟨h.mono.1, h.mono.2, h.mono.3, h.mono.4, h.mono.5, h.mono.6⟩⟩
      · exact ⟨_, rfl, rfl, ⟨h.mono.1, h.mono.2, h.mono.3, h.mono.4, h.mono.5, h.mono.6⟩⟩
    rw [if_neg e2, if_neg e2]
    by_cases e3 : c = '"' ∧ is_ = false
    · rw [if_pos e3, if_pos e3]
      cases id_
      · exact ⟨_, rfl, rfl, ⟨h.mono.1, h.mono.2, h.mono.3, h.mono.4, h.mono.5, h.mono.6⟩⟩
      · exact ⟨_, rfl, rfl, ⟨h.mono.1, h.mono.2, h.mono.3, h.mono.4, h.mono.5, h.mono.6⟩⟩
    rw [if_neg e3, if_neg e3]
    by_cases e4 : isSpace c = true
    · rw [if_pos e4, if_pos e4]
      cases ia
      · exact ⟨_, rfl, rfl, h.mono⟩
      · simp only [↓reduceIte]
        by_cases e5 : (is_ || id_) = true
        · rw [if_pos e5, if_pos e5]
          exact byte_ok _ n c h hn
        · rw [if_neg e5, if_neg e5]
          obtain ⟨s', h1, h2, h3⟩ := finish_ok _ n h hn
          rw [h1]
          refine ⟨_, rfl, ?_, ⟨h3.1, h3.2, h3.3, h3.4, h3.5, h3.6⟩⟩
          rw [show ({ s' with inArgument := false } : St).abs = { s'.abs with arg := false } from rfl, h2]; rfl
    · rw [if_neg e4, if_neg e4]
      obtain ⟨s', h1, h2, h3⟩ := byte_ok ⟨args, buf, true, false, is_, id_⟩ n c ⟨h.1, h.2, h.3, h.4, h.5, h.6⟩ hn
      exact ⟨s', h1, h2, h3⟩
  · simp only [↓reduceIte]
    obtain ⟨s', h1, h2, h3⟩ := byte_ok ⟨args, buf, true, true, is_, id_⟩ n c ⟨h.1, h.2, h.3, h.4, h.5, h.6⟩ hn
    rw [h1]
    refine ⟨_, rfl, ?_, ⟨h3.1, h3.2, h3.3, h3.4, h3.5, h3.6⟩⟩
    rw [show ({ s' with inEscape := false } : St).abs = { s'.abs with esc := false } from rfl, h2]; rfl

theorem steps_ok (l : Str) (s : St) (n : Nat) (h : Fits s n) (hn : n + l.length < 2 ^ 30) :
    ∃ s', steps s l = some s' ∧ s'.abs = l.foldl astep s.abs ∧ Fits s' (n + l.length) := by
  induction l generalizing s n with
  | nil => exact ⟨s, rfl, rfl, h⟩
  | cons c l ih =>
    rw [List.length_cons] at hn
    obtain ⟨s', h1, h2, h3⟩ := step_ok s n c h (by omega)
    obtain ⟨s'', h4, h5, h6⟩ := ih s' (n + 1) h3 (by omega)
    refine ⟨s'', by simp [steps, h1, h4], by rw [List.foldl_cons, ← h2, h5], ?_⟩
    rw [List.length_cons, show n + (l.length + 1) = n + 1 + l.length by omega]; exact h6

def astart : A := ⟨[], [], false, false, false, false⟩

theorem parse_ok (l : Str) (hl : l.length < 2 ^ 30) : parse l = some (let s := l.foldl astep astart; if s.arg then s.finish.args else s.args) := by
  obtain ⟨s', h1, h2, h3⟩ := steps_ok l start 0 (by constructor <;> simp [start]) (by omega)
  unfold parse
  rw [h1, Option.bind_some]
  have e : s'.abs = l.foldl astep astart := h2
  rw [← e]
  simp only
  cases ha : s'.inArgument
  · have : s'.abs.arg = false := ha
    rw [this]; rfl
  · have : s'.abs.arg = true := ha
    obtain ⟨s'', h4, h5, -⟩ := finish_ok s' _ h3 (by omega)
    rw [this]
    simp only [↓reduceIte, h4, Option.map_some]
    rw [← h5]; rfl

/-! ### Reading a line -/

theorem foldl_qchars (q : Quote) (l : List QChar) (hl : ∀ x ∈ l, x.Ok q) (args : List Str) (buf : Str) :
    (l.flatMap QChar.text).foldl astep ⟨args, buf, true, false, q = .single, q = .double⟩ = ⟨args, buf ++ l.map QChar.c, true, false, q = .single, q = .double⟩ := by
  induction l generalizing buf with
  | nil => simp
  | cons x l ih =>
    rw [List.flatMap_cons, List.foldl_append]
    have hx := hl x List.mem_cons_self
    have e : x.text.foldl astep ⟨args, buf, true, false, q = .single, q = .double⟩ = ⟨args, buf ++ [x.c], true, false, q = .single, q = .double⟩ := by
      unfold QChar.text
      obtain ⟨esc, c⟩ := x
      cases esc
      · obtain ⟨h1, h2⟩ := hx rfl
        simp only at h1 h2
        cases q <;> simp only [Quote.mark] at h1 <;> simp [astep, h1, h2]
      · simp [astep]
    rw [e, ih (fun y hy => hl y (List.mem_cons_of_mem _ hy))]
    simp

theorem foldl_piece (p : Piece) (hp : p.Ok) (hc : p.isOpen = false) (args : List Str) (buf : Str) (a : Bool) :
    p.text.foldl astep ⟨args, buf, a, false, false, false⟩ = ⟨args, buf ++ p.value, true, false, false, false⟩ := by
  cases p with
  | plain c =>
    obtain ⟨h1, h2, h3, h4⟩ := hp
    simp [Piece.text, Piece.value, astep, h1, h2, h3, h4]
  | esc c => simp [Piece.text, Piece.value, astep]
  | quoted q l closed =>
    have hcl : closed = true := by simpa [Piece.isOpen] using hc
    subst hcl
    have hq := foldl_qchars q l hp args buf
    simp only [Piece.text, Piece.value, ↓reduceIte, List.cons_append, List.foldl_cons, List.foldl_append, List.foldl_nil]
    have e1 : astep ⟨args, buf, a, false, false, false⟩ q.mark = ⟨args, buf, true, false, q = .single, q = .double⟩ := by
      cases q <;> simp [Quote.mark, astep]
    rw [e1, hq]
    cases q <;> simp [Quote.mark, astep]

theorem foldl_open (q : Quote) (l : List QChar) (hp : ∀ x ∈ l, x.Ok q) (args : List Str) (buf : Str) (a : Bool) :
    (Piece.quoted q l false).text.foldl astep ⟨args, buf, a, false, false, false⟩ = ⟨args, buf ++ l.map QChar.c, true, false, q = .single, q = .double⟩ := by
  have hq := foldl_qchars q l hp args buf
  simp only [Piece.text, Bool.false_eq_true, ↓reduceIte, List.append_nil, List.foldl_cons]
  have e1 : astep ⟨args, buf, a, false, false, false⟩ q.mark = ⟨args, buf, true, false, q = .single, q = .double⟩ := by
    cases q <;> simp [Quote.mark, astep]
  rw [e1, hq]

theorem foldl_pieces (ps : List Piece) (hp : ∀ p ∈ ps, p.Ok ∧ p.isOpen = false) (args : List Str) (buf : Str) (a : Bool) (hne : ps ≠ [] ∨ a = true) :
    (ps.flatMap Piece.text).foldl astep ⟨args, buf, a, false, false, false⟩ = ⟨args, buf ++ ps.flatMap Piece.value, true, false, false, false⟩ := by
  induction ps generalizing buf a with
  | nil => rcases hne with h | h
           · exact absurd rfl h
           · simp [h]
  | cons p ps ih =>
    rw [List.flatMap_cons, List.foldl_append, foldl_piece p (hp p List.mem_cons_self).1 (hp p List.mem_cons_self).2,
      ih (fun x hx => hp x (List.mem_cons_of_mem _ hx)) _ true (.inr rfl)]
    simp

theorem space_facts {c : Char} (h : isSpace c = true) : c ≠ '\\' ∧ c ≠ '\'' ∧ c ≠ '"' := by
  refine ⟨?_, ?_, ?_⟩ <;> (rintro rfl; revert h; decide)

theorem foldl_space (l : Str) (hl : ∀ c ∈ l, isSpace c = true) (args : List Str) :
    l.foldl astep ⟨args, [], false, false, false, false⟩ = ⟨args, [], false, false, false, false⟩ := by
  induction l with
  | nil => rfl
  | cons c l ih =>
    obtain ⟨h1, h2, h3⟩ := space_facts (hl c List.mem_cons_self)
    rw [List.foldl_cons]
    have e : astep ⟨args, [], false, false, false, false⟩ c = ⟨args, [], false, false, false, false⟩ := by
      simp [astep, h1, h2, h3, hl c List.mem_cons_self]
    rw [e, ih (fun x hx => hl x (List.mem_cons_of_mem _ hx))]

theorem foldl_gap (l : Str) (hl : ∀ c ∈ l, isSpace c = true) (args : List Str) (buf : Str) (h : l ≠ []) :
    l.foldl astep ⟨args, buf, true, false, false, false⟩ = ⟨args ++ [buf ++ [Char.ofNat 0]], [], false, false, false, false⟩ := by
  cases l with
  | nil => exact absurd rfl h
  | cons c l =>
    obtain ⟨h1, h2, h3⟩ := space_facts (hl c List.mem_cons_self)
    rw [List.foldl_cons]
    have e : astep ⟨args, buf, true, false, false, false⟩ c = ⟨args ++ [buf ++ [Char.ofNat 0]], [], false, false, false, false⟩ := by
      simp [astep, h1, h2, h3, hl c List.mem_cons_self, A.finish]
    rw [e, foldl_space l (fun x hx => hl x (List.mem_cons_of_mem _ hx))]

/-- The result of a line: its arguments, each with a final NUL. -/
def Line.values (l : Line) : List Str := l.args.map Arg.value

/-- Between arguments: `done` finished ones, or one just read. -/
theorem foldl_args (as : List Arg) (ha : ∀ a ∈ as, a.Ok) (hg : ∀ a ∈ as.tail, a.gap ≠ []) (hc : ∀ p ∈ as.flatMap Arg.pieces, p.isOpen = false) (hne : as ≠ []) :
    (as.flatMap Arg.text).foldl astep astart = ⟨as.dropLast.map (fun a => a.value ++ [Char.ofNat 0]), (as.getLast hne).value, true, false, false, false⟩ := by
  induction as using List.reverseRecOn with
  | nil => exact absurd rfl hne
  | append_singleton as a ih =>
    rw [List.flatMap_append, List.foldl_append, List.flatMap_singleton, Arg.text, List.foldl_append]
    have hao := ha a (by simp)
    have hps : ∀ p ∈ a.pieces, p.Ok ∧ p.isOpen = false := fun p hp => ⟨hao.pieces p hp, hc p (by simp [hp])⟩
    have e : a.gap.foldl astep ((as.flatMap Arg.text).foldl astep astart) = ⟨as.map (fun a => a.value ++ [Char.ofNat 0]), [], false, false, false, false⟩ := by
      by_cases hn : as = []
      · subst hn
        exact foldl_space a.gap hao.gap []
      · have hgap : a.gap ≠ [] := hg a (by
          obtain ⟨x, t, e⟩ := List.exists_cons_of_ne_nil hn
          subst e
          simp)
        rw [ih (fun x hx => ha x (by simp [hx])) (fun x hx => hg x (by
          obtain ⟨y, t, e⟩ := List.exists_cons_of_ne_nil hn
          subst e
          simp at hx ⊢
          exact .inl hx)) (fun p hp => hc p (by
            rw [List.flatMap_append]
            exact List.mem_append_left _ hp)) hn]
        rw [foldl_gap _ hao.gap _ _ hgap]
        congr 1
        conv_rhs => rw [← List.dropLast_concat_getLast hn]
        rw [List.map_append]
        rfl
    rw [e, foldl_pieces _ hps _ _ _ (.inl hao.some)]
    simp [Arg.value]

/-- `Line.Ok` of a line with a last piece `p`. -/
structure Snoc (as : List Arg) (g : Str) (ps : List Piece) (p : Piece) (sp : Str) : Prop where
  args : ∀ a ∈ as, a.Ok
  gaps : ∀ a ∈ as.tail, a.gap ≠ []
  gap : as ≠ [] → g ≠ []
  gsp : ∀ c ∈ g, isSpace c = true
  pss : ∀ x ∈ ps, x.Ok
  pok : p.Ok
  spc : ∀ c ∈ sp, isSpace c = true
  closed : ∀ x ∈ as.flatMap Arg.pieces ++ ps, x.isOpen = false
  last : p.isOpen = true → sp = []

theorem ok_snoc (as : List Arg) (g : Str) (ps : List Piece) (p : Piece) (sp : Str) (b : Bool) : Line.Ok ⟨as ++ [⟨g, ps ++ [p]⟩], sp, b⟩ ↔ Snoc as g ps p sp := by
  have e1 : (as ++ [⟨g, ps ++ [p]⟩] : List Arg).flatMap Arg.pieces = as.flatMap Arg.pieces ++ ps ++ [p] := by simp
  have e2 : ∀ a, a ∈ (as ++ [⟨g, ps ++ [p]⟩] : List Arg).tail ↔ a ∈ as.tail ∨ (as ≠ [] ∧ a = ⟨g, ps ++ [p]⟩) := by
    intro a
    cases as with
    | nil => simp
    | cons x t => simp
  constructor
  · intro h
    have ha := h.args ⟨g, ps ++ [p]⟩ (by simp)
    refine ⟨fun a m => h.args a (by simp [m]), fun a m => h.gaps a ((e2 a).2 (.inl m)), fun hn => h.gaps ⟨g, ps ++ [p]⟩ ((e2 _).2 (.inr ⟨hn, rfl⟩)), ha.gap, fun x m => ha.pieces x (by simp [m]), ha.pieces p (by simp), h.space, ?_, ?_⟩
    · have := h.closed
      simp only [e1, List.dropLast_concat] at this
      exact this
    · have := h.last p
      simp only [e1, List.getLast?_concat, forall_const] at this
      exact this
  · intro h
    refine ⟨?_, ?_, h.spc, ?_, ?_⟩
    · intro a m
      rcases List.mem_append.1 m with m | m
      · exact h.args a m
      · rw [List.mem_singleton.1 m]
        refine ⟨h.gsp, by simp, fun x m => ?_⟩
        rcases List.mem_append.1 m with m | m
        · exact h.pss x m
        · rw [List.mem_singleton.1 m]; exact h.pok
    · intro a m
      rcases (e2 a).1 m with m | ⟨hn, rfl⟩
      · exact h.gaps a m
      · exact h.gap hn
    · simp only [e1, List.dropLast_concat]; exact h.closed
    · intro q hq ho
      simp only [e1, List.getLast?_concat, Option.some.injEq] at hq
      subst hq
      exact h.last ho

theorem line_cases (l : Line) (h : l.Ok) : l.args = [] ∨ ∃ as g ps p, l.args = as ++ [⟨g, ps ++ [p]⟩] := by
  obtain ⟨args, sp, b⟩ := l
  rcases List.eq_nil_or_concat args with e | ⟨as, a, e⟩
  · exact .inl e
  · subst e
    have := (h.args a (by simp)).some
    rcases List.eq_nil_or_concat a.pieces with e | ⟨ps, p, e⟩
    · exact absurd e this
    · exact .inr ⟨as, a.gap, ps, p, by simp [List.concat_eq_append] at *; rw [← e]⟩

theorem foldl_snoc {as : List Arg} {g : Str} {ps : List Piece} {p : Piece} {sp : Str} (h : Snoc as g ps p sp) :
    ∃ sg db, ((as ++ [⟨g, ps ++ [p]⟩] : List Arg).flatMap Arg.text).foldl astep astart =
      ⟨as.map (fun a => a.value ++ [Char.ofNat 0]), (⟨g, ps ++ [p]⟩ : Arg).value, true, false, sg, db⟩ ∧ (p.isOpen = false → sg = false ∧ db = false) := by
  have e : g.foldl astep ((as.flatMap Arg.text).foldl astep astart) = ⟨as.map (fun a => a.value ++ [Char.ofNat 0]), [], false, false, false, false⟩ := by
    by_cases hn : as = []
    · subst hn
      exact foldl_space g h.gsp []
    · rw [foldl_args as h.args h.gaps (fun q hq => h.closed q (List.mem_append_left _ hq)) hn, foldl_gap _ h.gsp _ _ (h.gap hn)]
      congr 1
      conv_rhs => rw [← List.dropLast_concat_getLast hn]
      rw [List.map_append]
      rfl
  rw [List.flatMap_append, List.foldl_append, List.flatMap_singleton, Arg.text, List.foldl_append, e, List.flatMap_append, List.foldl_append, List.flatMap_singleton]
  have e2 : ∃ a, (ps.flatMap Piece.text).foldl astep ⟨as.map (fun a => a.value ++ [Char.ofNat 0]), [], false, false, false, false⟩ =
      ⟨as.map (fun a => a.value ++ [Char.ofNat 0]), ps.flatMap Piece.value, a, false, false, false⟩ := by
    by_cases hn : ps = []
    · subst hn; exact ⟨false, rfl⟩
    · exact ⟨true, by rw [foldl_pieces ps (fun x hx => ⟨h.pss x hx, h.closed x (List.mem_append_right _ hx)⟩) _ _ _ (.inl hn)]; rfl⟩
  obtain ⟨a, e2⟩ := e2
  rw [e2]
  by_cases ho : p.isOpen = false
  · rw [foldl_piece p h.pok ho]
    exact ⟨false, false, by simp [Arg.value], fun _ => ⟨rfl, rfl⟩⟩
  · cases p with
    | plain c => exact absurd rfl ho
    | esc c => exact absurd rfl ho
    | quoted q l cl =>
      cases cl
      · rw [foldl_open q l h.pok]
        refine ⟨decide (q = .single), decide (q = .double), ?_, fun h => absurd h ho⟩
        simp only [Arg.value, List.flatMap_append, List.flatMap_singleton, Piece.value]
      · exact absurd rfl ho

theorem foldl_bs (s : A) (h : s.esc = false) (b : Bool) : (if b then ['\\'] else ([] : Str)).foldl astep s = { s with esc := b } := by
  cases b
  · simp only [Bool.false_eq_true, ↓reduceIte, List.foldl_nil]; rw [← h]
  · simp [astep, h]

theorem parse_line (l : Line) (h : l.Ok) (hl : l.text.length < 2 ^ 30) : parse l.text = some (l.args.map fun a => a.value ++ [Char.ofNat 0]) := by
  rw [parse_ok _ hl]
  congr 1
  unfold Line.text
  rw [List.foldl_append, List.foldl_append]
  rcases line_cases l h with e | ⟨as, g, ps, p, e⟩
  · rw [e]
    simp only [List.flatMap_nil, List.foldl_nil]
    rw [show astart = ⟨[], [], false, false, false, false⟩ from rfl, foldl_space _ h.space, foldl_bs _ rfl]
    simp
  · obtain ⟨args, sp, b⟩ := l
    simp only at e ⊢
    subst e
    have hs := (ok_snoc as g ps p sp b).1 h
    obtain ⟨sg, db, h1, h2⟩ := foldl_snoc hs
    rw [h1]
    by_cases hsp : sp = []
    · subst hsp
      rw [List.foldl_nil, foldl_bs _ rfl]
      simp [A.finish]
    · have ho : p.isOpen = false := by
        cases hp : p.isOpen with
        | false => rfl
        | true => exact absurd (hs.last hp) hsp
      obtain ⟨rfl, rfl⟩ := h2 ho
      rw [foldl_gap _ hs.spc _ _ hsp, foldl_bs _ rfl]
      simp

/-! ### Every string is a line -/

/-- Add a piece to a line without open quote. -/
theorem add_piece (l : Line) (h : l.Ok) (hc : ∀ p ∈ l.args.flatMap Arg.pieces, p.isOpen = false) (p : Piece) (hp : p.Ok) :
    ∃ l' : Line, l'.Ok ∧ l'.text = l.args.flatMap Arg.text ++ l.space ++ p.text := by
  obtain ⟨args, sp, b⟩ := l
  simp only at hc ⊢
  by_cases hn : args ≠ [] ∧ sp = []
  · obtain ⟨hn, rfl⟩ := hn
    rcases line_cases _ h with e | ⟨as, g, ps, p0, e⟩
    · exact absurd e hn
    · simp only at e
      subst e
      have hs := (ok_snoc as g ps p0 [] b).1 h
      refine ⟨⟨as ++ [⟨g, (ps ++ [p0]) ++ [p]⟩], [], false⟩, (ok_snoc _ _ _ _ _ _).2 ⟨hs.args, hs.gaps, hs.gap, hs.gsp, ?_, hp, by simp, ?_, fun _ => rfl⟩, ?_⟩
      · intro x hx
        rcases List.mem_append.1 hx with hx | hx
        · exact hs.pss x hx
        · rw [List.mem_singleton.1 hx]; exact hs.pok
      · intro x hx
        refine hc x ?_
        simpa using hx
      · simp [Line.text, Arg.text]
  · refine ⟨⟨args ++ [⟨sp, [] ++ [p]⟩], [], false⟩, (ok_snoc _ _ _ _ _ _).2 ⟨h.args, h.gaps, ?_, h.space, by simp, hp, by simp, ?_, fun _ => rfl⟩, ?_⟩
    · intro h1 h2; exact hn ⟨h1, h2⟩
    · intro x hx; exact hc x (by simpa using hx)
    · simp [Line.text, Arg.text]

/-- A line has a quote left open at its end, or none at all. -/
theorem open_cases (l : Line) (h : l.Ok) : (∀ p ∈ l.args.flatMap Arg.pieces, p.isOpen = false) ∨
    ∃ as g ps q x, l.args = as ++ [⟨g, ps ++ [.quoted q x false]⟩] ∧ l.space = [] := by
  obtain ⟨args, sp, b⟩ := l
  rcases line_cases _ h with e | ⟨as, g, ps, p, e⟩
  · left; simp only at e; subst e; simp
  · simp only at e
    subst e
    have hs := (ok_snoc as g ps p sp b).1 h
    cases ho : p.isOpen with
    | false =>
      left
      intro x hx
      simp only [List.flatMap_append, List.flatMap_singleton, ← List.append_assoc] at hx
      rcases List.mem_append.1 hx with hx | hx
      · exact hs.closed x hx
      · rw [List.mem_singleton.1 hx]; exact ho
    | true =>
      right
      cases p with
      | plain c => cases ho
      | esc c => cases ho
      | quoted q x cl =>
        cases cl
        · exact ⟨as, g, ps, q, x, rfl, hs.last ho⟩
        · cases ho

theorem every_line (s : Str) : ∃ l : Line, l.Ok ∧ l.text = s := by
  induction s using List.reverseRecOn with
  | nil => exact ⟨⟨[], [], false⟩, ⟨by simp, by simp, by simp, by simp, by simp⟩, rfl⟩
  | append_singleton s c ih =>
    obtain ⟨l, h, ht⟩ := ih
    rcases open_cases l h with hc | ⟨as, g, ps, q, x, ea, es⟩
    · obtain ⟨args, sp, b⟩ := l
      cases b
      · have ht : args.flatMap Arg.text ++ sp = s := by simpa [Line.text] using ht
        by_cases e1 : c = '\\'
        · refine ⟨⟨args, sp, true⟩, ⟨h.args, h.gaps, h.space, h.closed, h.last⟩, ?_⟩
          simp [Line.text, ← ht, e1]
        by_cases e2 : c = '\''
        · obtain ⟨l', h1, h2⟩ := add_piece _ h hc (.quoted .single [] false) (by intro x hx; cases hx)
          refine ⟨l', h1, ?_⟩
          rw [h2, ← ht, e2]; rfl
        by_cases e3 : c = '"'
        · obtain ⟨l', h1, h2⟩ := add_piece _ h hc (.quoted .double [] false) (by intro x hx; cases hx)
          refine ⟨l', h1, ?_⟩
          rw [h2, ← ht, e3]; rfl
        by_cases e4 : isSpace c = true
        · refine ⟨⟨args, sp ++ [c], false⟩, ⟨h.args, h.gaps, ?_, h.closed, ?_⟩, ?_⟩
          · intro y hy
            rcases List.mem_append.1 hy with hy | hy
            · exact h.space y hy
            · rw [List.mem_singleton.1 hy]; exact e4
          · intro p hp ho
            have := hc p (List.mem_of_getLast? hp)
            rw [this] at ho; cases ho
          · simp [Line.text, ← ht]
        · obtain ⟨l', h1, h2⟩ := add_piece _ h hc (.plain c) ⟨by simpa using e4, e1, e2, e3⟩
          refine ⟨l', h1, ?_⟩
          rw [h2, ← ht]; rfl
      · have ht : args.flatMap Arg.text ++ sp ++ ['\\'] = s := by simpa [Line.text] using ht
        obtain ⟨l', h1, h2⟩ := add_piece _ h hc (.esc c) trivial
        refine ⟨l', h1, ?_⟩
        rw [h2, ← ht]
        simp [Piece.text]
    · obtain ⟨args, sp, b⟩ := l
      simp only at ea es
      subst ea; subst es
      have hs := (ok_snoc _ _ _ _ _ _).1 h
      have grow : ∀ (p : Piece), p.Ok → Line.Ok ⟨as ++ [⟨g, ps ++ [p]⟩], [], false⟩ := fun p hp =>
        (ok_snoc _ _ _ _ _ _).2 ⟨hs.args, hs.gaps, hs.gap, hs.gsp, hs.pss, hp, by simp, hs.closed, fun _ => rfl⟩
      have more : ∀ y : QChar, y.Ok q → Piece.Ok (.quoted q (x ++ [y]) false) := by
        intro y hy z hz
        rcases List.mem_append.1 hz with hz | hz
        · exact hs.pok z hz
        · rw [List.mem_singleton.1 hz]; exact hy
      cases b
      · by_cases e1 : c = '\\'
        · refine ⟨⟨as ++ [⟨g, ps ++ [.quoted q x false]⟩], [], true⟩, ⟨h.args, h.gaps, h.space, h.closed, h.last⟩, ?_⟩
          rw [← ht, e1]; simp [Line.text]
        by_cases e2 : c = q.mark
        · refine ⟨⟨as ++ [⟨g, ps ++ [.quoted q x true]⟩], [], false⟩, grow (.quoted q x true) (fun y hy => hs.pok y hy), ?_⟩
          rw [← ht, e2]; simp [Line.text, Arg.text, Piece.text]
        · refine ⟨⟨as ++ [⟨g, ps ++ [.quoted q (x ++ [⟨false, c⟩]) false]⟩], [], false⟩, grow _ (more _ fun _ => ⟨e2, e1⟩), ?_⟩
          rw [← ht]; simp [Line.text, Arg.text, Piece.text, QChar.text]
      · refine ⟨⟨as ++ [⟨g, ps ++ [.quoted q (x ++ [⟨true, c⟩]) false]⟩], [], false⟩, grow _ (more _ fun h => by cases h), ?_⟩
        rw [← ht]; simp [Line.text, Arg.text, Piece.text, QChar.text]

/-! ### The property -/

/-- C146: every command string (below 1 GiB) is a command line in the sense above, its arguments do not depend on how it is read as one, and
    the parser returns exactly these arguments, each NUL-terminated; no buffer is overrun however long arguments and argument lists are. -/
theorem C146_parse (s : Str) (hs : s.length < 2 ^ 30) :
    (∃ l : Line, l.Ok ∧ l.text = s) ∧
    ∀ l : Line, l.Ok → l.text = s → parseCommand s 0 = some (some (l.args.map fun a => a.value ++ [Char.ofNat 0])) := by
  refine ⟨every_line s, fun l h e => ?_⟩
  subst e
  simp [parseCommand, parse_line l h hs]

/-- Writing an argument so that any shell or program text in it is harmless. -/
def protect (a : Str) : Str := '\'' :: a.flatMap (fun c => if c = '\'' ∨ c = '\\' then ['\\', c] else [c]) ++ ['\'']

/-- C146: protected arguments, joined with spaces, come back unchanged, whatever they contain and even if they are empty. -/
theorem C146_round_trip (args : List Str) (hs : (args.flatMap fun a => ' ' :: protect a).length < 2 ^ 30) :
    parseCommand (args.flatMap fun a => ' ' :: protect a) 0 = some (some (args.map fun a => a ++ [Char.ofNat 0])) := by
  have hq : ∀ a : Str, (a.map fun c => (⟨decide (c = '\'' ∨ c = '\\'), c⟩ : QChar)).flatMap QChar.text = a.flatMap (fun c => if c = '\'' ∨ c = '\\' then ['\\', c] else [c]) := by
    intro a
    rw [List.flatMap_map]
    congr 1
    funext c
    unfold QChar.text
    simp only [decide_eq_true_eq]
  let mk : Str → Arg := fun a => ⟨[' '], [.quoted .single (a.map fun c => ⟨decide (c = '\'' ∨ c = '\\'), c⟩) true]⟩
  have hmk : ∀ a, (mk a).text = ' ' :: protect a := by
    intro a
    simp only [mk, Arg.text, List.flatMap_singleton, Piece.text, hq, protect]
    rfl
  have hv : ∀ a, (mk a).value = a := by
    intro a
    simp only [mk, Arg.value, List.flatMap_singleton, Piece.value, List.map_map]
    exact List.map_id _
  have hcl : ∀ p ∈ (args.map mk).flatMap Arg.pieces, p.isOpen = false := by
    intro p hp
    simp only [List.mem_flatMap, List.mem_map] at hp
    obtain ⟨a, ⟨b, -, rfl⟩, hp⟩ := hp
    simp only [mk, List.mem_singleton] at hp
    subst hp; rfl
  have hok : Line.Ok ⟨args.map mk, [], false⟩ := by
    refine ⟨?_, ?_, by simp, fun p hp => hcl p (List.dropLast_subset _ hp), fun p hp ho => rfl⟩
    · intro a ha
      obtain ⟨b, -, rfl⟩ := List.mem_map.1 ha
      refine ⟨by simp [mk, isSpace], by simp [mk], ?_⟩
      intro p hp
      simp only [mk, List.mem_singleton] at hp
      subst hp
      intro x hx he
      obtain ⟨c, -, rfl⟩ := List.mem_map.1 hx
      simp only [decide_eq_false_iff_not, not_or] at he
      exact he
    · intro a ha
      obtain ⟨b, -, rfl⟩ := List.mem_map.1 (List.mem_of_mem_tail ha)
      simp [mk]
  have ht : Line.text ⟨args.map mk, [], false⟩ = args.flatMap fun a => ' ' :: protect a := by
    simp only [Line.text, List.append_nil, Bool.false_eq_true, ↓reduceIte, List.flatMap_map, hmk]
  have := (C146_parse _ hs).2 _ hok ht
  rw [this]
  simp only [List.map_map]
  congr 2
  apply List.map_congr_left
  intro a _
  simp only [Function.comp_apply, hv]

/-- Any flag but 0 is refused. -/
theorem C146_flags (s : Str) (flags : Int) (h : flags ≠ 0) : parseCommand s flags = some none := by simp [parseCommand, h]

example : parseCommand "cc -D'A \\'b' \"\"  x\\ y\\".toList 0 = some (some ["cc\x00".toList, "-DA 'b\x00".toList, "\x00".toList, "x y\x00".toList]) := by decide +kernel

end Vital.Command
