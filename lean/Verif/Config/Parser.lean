import Verif.Config.Model
import Verif.Config.Expand
import Verif.Sys.Paths
/-
  Model of vital/config/config_parser.cxx.

  Omitted: log messages and the members used only for them (m_current_file, m_last_line, m_token_state).
  `std::vector` stacks are lists whose head is the back of the vector.  Line and file counters are
  unbounded.  The two regular expressions of `get_token` are modelled by scanners
  (`Verif/Regex/Link.lean` proves that the compiled patterns agree with them, C123).
-/
namespace Vital.Parser
open Vital Vital.Config Vital.Expand Vital.Sys

/-! ### Tokens -/

-- models: vital/config/config_parser.cxx:96-109 (token_t)
inductive TokenType where
  | word | flag | assign | localAssign | error | eof
  deriving DecidableEq, Repr

structure Token where
  ty : TokenType
  val : Str
  deriving DecidableEq, Repr

/-- `[-a-zA-Z0-9.:/_]` -/
def isWordMid (c : Char) : Bool :=
  isAlpha c || isDigit c || c == '-' || c == '.' || c == ':' || c == '/' || c == '_'

/-- `[a-zA-Z,]` -/
def isFlagChar (c : Char) : Bool := isAlpha c || c == ','

/-- Remove trailing colons. -/
def dropColons (s : Str) : Str := (s.reverse.dropWhile (· == ':')).reverse

/-- Match `^[a-zA-Z][-a-zA-Z0-9.:/_]+[-a-zA-Z0-9./_]`: matched text and remaining text.  The greedy middle
    part gives back characters until the last one is not a colon. -/
-- models: vital/config/config_parser.cxx:540 (re_word)
def scanWord : Str → Option (Str × Str)
  | [] => none
  | a :: r =>
    if isAlpha a && decide (2 ≤ (dropColons (r.takeWhile isWordMid)).length) then
      some (a :: dropColons (r.takeWhile isWordMid), r.drop (dropColons (r.takeWhile isWordMid)).length)
    else none

/-- Match `^\[[a-zA-Z,]+\]`. -/
-- models: vital/config/config_parser.cxx:541 (re_flag)
def scanFlag : Str → Option (Str × Str)
  | '[' :: r =>
    match r.takeWhile isFlagChar, r.dropWhile isFlagChar with
    | [], _ => none
    | f, ']' :: rest => some ('[' :: f ++ [']'], rest)
    | _, _ => none
  | _ => none

/-! ### Lines -/

/-- The lines `std::getline` delivers: the text is cut at newlines; nothing follows a final newline. -/
-- models: vital/config/config_parser.cxx:481 (getline on std::ifstream)
def fileLines : Str → List Str
  | [] => []
  | '\n' :: r => [] :: fileLines r
  | a :: r =>
    match fileLines r, r with
    | [], _ => [[a]]
    | x :: xs, r => if r.head? = some '\n' then [a] :: xs else (a :: x) :: xs

/-- The text of a line after trimming and comment removal; empty when the line is skipped. -/
-- models: vital/config/config_parser.cxx:490-512
def cleanLine (l : Str) : Str :=
  if trim l = [] then []
  else if (trim l).contains '#' then trim ((trim l).takeWhile (· != '#'))
  else trim l

/-- `get_line`: next line that is not blank, remaining lines, number of lines read. -/
-- models: vital/config/config_parser.cxx:477-520 (get_line)
def getLine : List Str → Option Str × List Str × Nat
  | [] => (none, [], 0)
  | l :: ls =>
    if cleanLine l = [] then
      match getLine ls with
      | (x, rest, n) => (x, rest, n + 1)
    else (some (cleanLine l), ls, 1)

/-! ### Parser state -/

-- models: vital/config/config_parser.cxx:119-126 (block_context_t)
structure BlockCtx where
  name : Str
  file : Str
  line : Nat
  prev : Str
  deriving DecidableEq, Repr

-- models: vital/config/config_parser.cxx:681-727 (member data of config_parser::priv)
structure PS where
  blocks : List BlockCtx
  context : Str
  incl : List Str
  line : Nat
  fileCount : Int
  parseErr : Bool
  symtab : OMap Str Str
  search : List Str
  heap : Heap
  cfg : Nat
  tok : Str

/-- Exceptions leaving `parse_config`. -/
inductive PExc where
  /-- config_file_not_found_exception( path, .. ) -/
  | notFound (path : Str)
  /-- config_file_not_parsed_exception( path, .. ) -/
  | notParsed (path : Str)
  /-- an exception of the config block -/
  | config (e : Exc)
  deriving DecidableEq, Repr

-- models: vital/config/config_parser.cxx:132-145 (constructor); `h` holds the blocks existing before
def fresh (h : Heap) (search : List Str) : PS :=
  { blocks := [], context := [], incl := [], line := 0, fileCount := 0, parseErr := false, symtab := [],
    search := search, heap := (emptyConfig h []).1, cfg := h.length, tok := [] }

/-- Values of the config under construction, for `$CONFIG{..}`. -/
-- models: vital/config/token_type_config.cxx:52-72
def configLookup (h : Heap) (b : Nat) (k : Str) : Option Str :=
  match getValue h b k with
  | .ok v => some v
  | .error _ => none

/-- The registered token types: environment, system, config and local symbols. -/
-- models: vital/config/config_parser.cxx:140-143, token_type_env.cxx:54-72, token_type_sysenv.cxx:61-,
-- token_type_config.cxx:52-72, token_type_symtab.cxx:71-88
def types (w : World) (s : PS) : Types :=
  addTokenType (addTokenType (addTokenType (addTokenType []
    (c!"ENV") w.env)
    (c!"SYSENV") w.sysenv)
    (c!"CONFIG") (configLookup s.heap s.cfg))
    (c!"LOCAL") (fun k => symLookup s.symtab k)

-- models: vital/config/config_parser.cxx:543-553 (read a line when none is pending)
def fill (s : PS) (rest : List Str) : Option PS × PS × List Str :=
  if s.tok = [] then
    match getLine rest with
    | (none, rest', n) => (none, { s with line := s.line + n }, rest')
    | (some l, rest', n) => (some { s with line := s.line + n, tok := l }, s, rest')
  else (some s, s, rest)

/-- The token at the start of a non-empty line and the text left of the line; `true` for an
    unrecognised one. -/
-- models: vital/config/config_parser.cxx:555-597
def lex (t : Str) : Token × Str :=
  if startsWith t (c!":=") then (⟨.localAssign, trim (t.drop 2)⟩, [])
  else if t.head? = some '=' then (⟨.assign, trim (t.drop 1)⟩, [])
  else
    match scanFlag t with
    | some (f, rest) => (⟨.flag, f⟩, trim rest)
    | none =>
      match scanWord t with
      | some (v, rest) => (⟨.word, v⟩, trim rest)
      | none => (⟨.error, t⟩, [])

-- models: vital/config/config_parser.cxx:536-600 (get_token)
def getToken (s : PS) (rest : List Str) : Token × PS × List Str :=
  match fill s rest with
  | (none, s', rest') => (⟨.eof, []⟩, s', rest')
  | (some s', _, rest') =>
    match lex s'.tok with
    | (t, tok') => (t, { s' with tok := tok', parseErr := s'.parseErr || decide (t.ty = .error) }, rest')

/-! ### Include files -/

/-- Directory of a file, "." when the name has none. -/
-- models: vital/config/config_parser.cxx:181-186, 657-661
def dirOf (w : World) (f : Str) : Str :=
  if getFilenamePath w f = [] then c!"." else getFilenamePath w f

/-- Directories of the include stack, innermost first, without repetitions. -/
-- models: vital/config/config_parser.cxx:650-669
def includeDirs (w : World) : List Str → List Str → List Str
  | [], _ => []
  | f :: fs, seen =>
    if seen.contains (dirOf w f) then includeDirs w fs seen
    else dirOf w f :: includeDirs w fs (dirOf w f :: seen)

-- models: vital/config/config_parser.cxx:632-672 (resolve_file_name)
def resolveFileName (w : World) (search incl : List Str) (name : Str) : Str :=
  if fileIsFullPath name then name
  else if findFile w name search false ≠ [] then findFile w name search false
  else findFile w name (includeDirs w incl []) false

/-- Start of `process_file`: open the file, count and stack it. -/
-- models: vital/config/config_parser.cxx:159-179
def openFile (w : World) (s : PS) (file : Str) : PS × Except PExc (List Str) :=
  match w.content file with
  | none => ({ s with tok := [], line := 0 }, .error (.notFound file))
  | some c => ({ s with tok := [], line := 0, fileCount := s.fileCount + 1, incl := file :: s.incl },
               .ok (fileLines c))

/-- End of file handling of `process_file`. -/
-- models: vital/config/config_parser.cxx:194-230
def finish (s : PS) (file : Str) : PS × Except PExc Unit :=
  let s1 := { s with fileCount := s.fileCount - 1, incl := s.incl.drop 1 }
  if s1.fileCount = 0 then
    let s2 := { s1 with blocks := [], parseErr := s1.parseErr || !s1.blocks.isEmpty }
    if s2.parseErr then (s2, .error (.notParsed file)) else (s2, .ok ())
  else (s1, .ok ())

/-! ### The main loop -/

/-- The flags of an entry, from the current token on: read-only mark, first token that is not a flag.
    The first argument bounds the number of flags. -/
-- models: vital/config/config_parser.cxx:385-405
def flagLoop : Nat → Token → PS → List Str → Bool → Bool × Token × PS × List Str
  | 0, t, s, rest, ro => (ro, t, s, rest)
  | n + 1, t, s, rest, ro =>
    if t.ty = .flag then
      let isRO := decide (c!"[RO]" <:+: t.val.map toUpper)
      let s1 := { s with parseErr := s.parseErr || !isRO }
      match getToken s1 rest with
      | (t', s', rest') => flagLoop n t' s' rest' (ro || isRO)
    else (ro, t, s, rest)

/-- Amount of text left; each flag shortens it. -/
def textLeft (s : PS) (rest : List Str) : Nat := s.tok.length + (rest.map (fun l => l.length + 1)).sum

/-- What one iteration of the loop of `process_file` ends with. -/
inductive Step where
  | eof (s : PS)
  | more (s : PS) (rest : List Str)
  | incl (s : PS) (rest : List Str) (path : Str) (line : Nat)
  | throw (s : PS) (e : PExc)

def flush (s : PS) : PS := { s with tok := [] }
/-- Syntax error: latch it and skip the line. -/
-- models: vital/config/config_parser.cxx:291-299, 359-367, 450-458
def syntaxError (s : PS) (rest : List Str) : Step := .more { s with tok := [], parseErr := true } rest

/-- The include directive; the file name is the text left of the line. -/
-- models: vital/config/config_parser.cxx:232-281 (up to the recursive call)
def includeStep (w : World) (s : PS) (rest : List Str) : Step :=
  let exp := expandToken (types w s) s.tok
  let path := resolveFileName w s.search s.incl exp
  if path = [] then .throw s (.notFound exp)
  else if !fileExists w path then .throw (flush s) (.notFound exp)
  else if fileIsDirectory w path then .throw (flush s) (.notFound path)
  else .incl (flush s) rest path s.line

/-- The block directive. -/
-- models: vital/config/config_parser.cxx:284-318
def blockStep (file : Str) (s : PS) (rest : List Str) : Step :=
  match getToken s rest with
  | (t, s, rest) =>
    if t.ty = .word then
      .more { s with
        blocks := ⟨t.val, file, s.line, s.context⟩ :: s.blocks
        context := s.context ++ (t.val ++ blockSep)
        tok := [] } rest
    else syntaxError s rest

/-- The endblock directive. -/
-- models: vital/config/config_parser.cxx:321-342
def endblockStep (file : Str) (s : PS) (rest : List Str) : Step :=
  match s.blocks with
  | [] => .throw (flush s) (.notParsed file)
  | b :: bs => .more { s with blocks := bs, context := b.prev, tok := [] } rest

/-- A config entry: set the value, record its location, mark it. -/
-- models: vital/config/config_parser.cxx:410-436
def assignStep (w : World) (file : Str) (rel ro : Bool) (lhs rhs : Str) (s : PS) (rest : List Str) : Step :=
  let key := s.context ++ lhs
  let v := expandToken (types w s) rhs
  let val := if rel then dirOf w file ++ c!"/" ++ v else v
  match setValue s.heap s.cfg key val [] with
  | (h, .error e) => .throw { s with heap := h } (.config e)
  | (h, .ok ()) =>
    let h := (setLocation h s.cfg key (file, (s.line : Int))).1
    let h := if ro then (markReadOnly h s.cfg key).1 else h
    .more { s with heap := h } rest

/-- A line that should define something, from its first token `t` on. -/
-- models: vital/config/config_parser.cxx:357-459
def defineStep (w : World) (file : Str) (rel : Bool) (t : Token) (s : PS) (rest : List Str) : Step :=
  if t.ty = .word then
    match getToken s rest with
    | (t1, s1, rest1) =>
      match flagLoop (textLeft s1 rest1 + 1) t1 s1 rest1 false with
      | (ro, t2, s2, rest2) =>
        match t2.ty with
        | .assign => assignStep w file rel ro t.val t2.val s2 rest2
        | .localAssign =>
          .more { s2 with symtab := symStep s2.symtab (.add t.val (expandToken (types w s2) t2.val)) } rest2
        | _ => syntaxError s2 rest2
  else syntaxError s rest

/-- One iteration of the loop of `process_file`. -/
-- models: vital/config/config_parser.cxx:188-460
def item (w : World) (file : Str) (s : PS) (rest : List Str) : Step :=
  match getToken s rest with
  | (t, s, rest) =>
    if t.ty = .eof then .eof s
    else if t.val = c!"include" then includeStep w s rest
    else if t.val = c!"block" then blockStep file s rest
    else if t.val = c!"endblock" then endblockStep file s rest
    else if t.val = c!"relativepath" then
      match getToken s rest with
      | (t', s, rest) => defineStep w file true t' s rest
    else defineStep w file false t s rest

/-- The loop of `process_file` with the recursive calls; the first argument bounds the number of
    iterations, `none` means that it was exhausted. -/
-- models: vital/config/config_parser.cxx:188-460
def loopF : Nat → World → Str → PS → List Str → Option (PS × Except PExc Unit)
  | 0, _, _, _, _ => none
  | n + 1, w, file, s, rest =>
    match item w file s rest with
    | .eof s' => some (finish s' file)
    | .more s' rest' => loopF n w file s' rest'
    | .throw s' e => some (s', .error e)
    | .incl s' rest' path line =>
      match openFile w s' path with
      | (s1, .error e) => some (s1, .error e)
      | (s1, .ok lines) =>
        match loopF n w path s1 lines with
        | none => none
        | some (s2, .error e) => some (s2, .error e)
        | some (s2, .ok ()) => loopF n w file { s2 with line := line } rest'

-- models: vital/config/config_parser.cxx:159-460 (process_file), 768-775 (parse_config)
def parseF (n : Nat) (w : World) (s : PS) (file : Str) : Option (PS × Except PExc Unit) :=
  match openFile w s file with
  | (s1, .error e) => some (s1, .error e)
  | (s1, .ok lines) => loopF n w file s1 lines

/-- `parse_config( file )` on a parser in state `s` ends in state `s'` with result `r` (returning or
    throwing).  When no `s'`, `r` exist the call does not terminate. -/
def Parses (w : World) (s : PS) (file : Str) (s' : PS) (r : Except PExc Unit) : Prop :=
  ∃ n, parseF n w s file = some (s', r)

end Vital.Parser
