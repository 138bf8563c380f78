/-
  kwiversys::RegularExpression (vital/kwiversys/RegularExpression.cxx, .hxx.in): the compiler and the matcher at the
  level of the bytes of the compiled program.

  A byte is a `Nat`; a C string is the list of its bytes without the terminating zero.  Addresses are indices
  into the program.  Properties C118 to C123.
-/
namespace Vital.Regex

/-! ### The program -/

/-- A node: opcode and the two bytes of the "next" offset. -/
-- models: vital/kwiversys/RegularExpression.cxx:262-278 (node layout, NEXT), 845-846
def node (op off : Nat) : List Nat := [op, off / 256 % 256, off % 256]

/-- `regnext`; `none` is the null pointer (also used for a read outside the program). -/
-- models: vital/kwiversys/RegularExpression.cxx:1209-1242 (regnext), 275-276 (OP, NEXT)
def regnext (code : List Nat) (p : Nat) : Option Nat :=
  match code[p]?, code[p + 1]?, code[p + 2]? with
  | some op, some hi, some lo =>
    let off := hi * 256 + lo
    if off = 0 then none else if op = 7 then some (p - off) else some (p + off)
  | _, _, _ => none

/-- The C string at an address; `none` when there is no terminating zero in the program. -/
def cstr (code : List Nat) (a : Nat) : Option (List Nat) :=
  if 0 ∈ code.drop a then some ((code.drop a).takeWhile (fun b => b != 0)) else none

/-! ### Compiling -/

/-- The work variables of `compile`: `rest` is the text at `regparse`; `mem` is the program written so far up to
    `regcode`, or `none` in the first pass, which only counts `size`. -/
-- models: vital/kwiversys/RegularExpression.cxx:300-305
structure CS where
  rest : List Nat
  npar : Nat
  size : Nat
  mem : Option (List Nat)

/-- HASWIDTH, SIMPLE, SPSTART. -/
-- models: vital/kwiversys/RegularExpression.cxx:286-289
structure Flags where
  width : Bool := false
  simple : Bool := false
  sp : Bool := false

/-- `regnode`: the address of the new node (0 in the first pass). -/
-- models: vital/kwiversys/RegularExpression.cxx:756-773 (regnode)
def regnode (op : Nat) (s : CS) : Nat × CS :=
  match s.mem with
  | none => (0, { s with size := s.size + 3 })
  | some m => (m.length, { s with mem := some (m ++ node op 0) })

/-- `regc` for each of the given bytes. -/
-- models: vital/kwiversys/RegularExpression.cxx:777-784 (regc)
def regc (bs : List Nat) (s : CS) : CS :=
  match s.mem with
  | none => { s with size := s.size + bs.length }
  | some m => { s with mem := some (m ++ bs) }

-- models: vital/kwiversys/RegularExpression.cxx:790-813 (reginsert)
def reginsert (op opnd : Nat) (s : CS) : CS :=
  match s.mem with
  | none => { s with size := s.size + 3 }
  | some m => { s with mem := some (m.take opnd ++ node op 0 ++ m.drop opnd) }

/-- The last node of the chain that starts at a node. -/
-- models: vital/kwiversys/RegularExpression.cxx:827-834
def lastNode (code : List Nat) : Nat → Nat → Nat
  | 0, p => p
  | n + 1, p =>
    match regnext code p with
    | none => p
    | some t => lastNode code n t

/-- Store an offset in a node; `none` outside the program. -/
-- models: vital/kwiversys/RegularExpression.cxx:840-841
def setNext (code : List Nat) (p off : Nat) : Option (List Nat) :=
  if p + 2 < code.length then some (code.take (p + 1) ++ [off / 256 % 256, off % 256] ++ code.drop (p + 3)) else none

/-- `regtail` on the program. -/
-- models: vital/kwiversys/RegularExpression.cxx:819-842 (regtail)
def tailCode (code : List Nat) (p val : Nat) : Option (List Nat) :=
  let scan := lastNode code code.length p
  if code[scan]? = some 7 then setNext code scan (scan - val) else setNext code scan (val - scan)

/-- `regtail`; `none` when it writes outside the program. -/
-- models: vital/kwiversys/RegularExpression.cxx:819-842
def regtail (p val : Nat) (s : CS) : Option CS :=
  match s.mem with
  | none => some s
  | some m => (tailCode m p val).map (fun m' => { s with mem := some m' })

-- models: vital/kwiversys/RegularExpression.cxx:848-853 (regoptail)
def regoptail (p val : Nat) (s : CS) : Option CS :=
  match s.mem with
  | none => some s
  | some m => if m[p]? = some 6 then regtail (p + 3) val s else some s

/-- `for (br = ret; br != 0; br = regnext(br)) regoptail(br, ender);` the first argument bounds the iterations. -/
-- models: vital/kwiversys/RegularExpression.cxx:482-483
def optailLoop (ender : Nat) : Nat → Nat → CS → Option CS
  | 0, _, _ => none
  | n + 1, br, s =>
    match s.mem with
    | none => some s
    | some _ =>
      match regoptail br ender s with
      | none => none
      | some s' =>
        match regnext (s'.mem.getD []) br with
        | none => some s'
        | some t => optailLoop ender n t s'

/-- `ISMULT`: one of `* + ?`. -/
-- models: vital/kwiversys/RegularExpression.cxx:282
def isMult (c : Nat) : Bool := c == 42 || c == 43 || c == 63

/-- `META`: one of `^$.[()|?+*\`. -/
-- models: vital/kwiversys/RegularExpression.cxx:283
def isMeta (c : Nat) : Bool :=
  c == 94 || c == 36 || c == 46 || c == 91 || c == 40 || c == 41 || c == 124 || c == 63 || c == 43 || c == 42 || c == 92

/-- The bytes from `lo` to `hi`. -/
def byteRange (lo hi : Nat) : List Nat := (List.range (hi + 1 - lo)).map (fun i => lo + i)

/-- The loop over the characters of a class: the bytes stored and the text left at the closing bracket. `prev` is the
    character before the current one. -/
-- models: vital/kwiversys/RegularExpression.cxx:645-667
def classScan (prev : Nat) : List Nat → Option (List Nat × List Nat)
  | [] => none
  | c :: t =>
    if c = 93 then some ([], t)
    else if c = 45 then
      match t with
      | [] => none
      | h :: t' =>
        if h = 93 then some ([45], t')
        else if prev + 1 > h + 1 then none
        else (classScan h t').map (fun r => (byteRange (prev + 1) h ++ r.1, r.2))
    else (classScan c t).map (fun r => (c :: r.1, r.2))

/-- A class after its opening bracket: negated, the bytes stored, the text after the closing bracket. -/
-- models: vital/kwiversys/RegularExpression.cxx:632-676
def classBody (t : List Nat) : Option (Bool × List Nat × List Nat) :=
  let neg := t.head? == some 94
  let t := if neg then t.tail else t
  match t with
  | [] => none
  | c :: t' =>
    if c = 93 ∨ c = 45 then (classScan c t').map (fun r => (neg, c :: r.1, r.2))
    else (classScan 0 (c :: t')).map (fun r => (neg, r.1, r.2))

/-- The number of ordinary characters in front, less one if an operator follows more than one of them. -/
-- models: vital/kwiversys/RegularExpression.cxx:708-718
def runLength (t : List Nat) : Nat :=
  let len := (t.takeWhile (fun c => !isMeta c)).length
  match t[len]? with
  | some e => if 1 < len ∧ isMult e then len - 1 else len
  | none => len

/-- Result of a compile function: address of the node, flags, and the state; `none` is a null pointer (compile error). -/
abbrev CRes := Option (Nat × Flags × CS)

/-- `regatom`; `reg` is the function for a parenthesized expression, called after the opening parenthesis. -/
-- models: vital/kwiversys/RegularExpression.cxx:614-740 (regatom)
def regatom (reg : CS → CRes) (s : CS) : CRes :=
  match s.rest with
  | [] => none
  | c :: t =>
    if c = 94 then let (a, s) := regnode 1 { s with rest := t }; some (a, {}, s)
    else if c = 36 then let (a, s) := regnode 2 { s with rest := t }; some (a, {}, s)
    else if c = 46 then let (a, s) := regnode 3 { s with rest := t }; some (a, { width := true, simple := true }, s)
    else if c = 91 then
      match classBody t with
      | none => none
      | some (neg, cs, t') =>
        let (a, s) := regnode (if neg then 5 else 4) { s with rest := t' }
        some (a, { width := true, simple := true }, regc (cs ++ [0]) s)
    else if c = 40 then
      match reg { s with rest := t } with
      | none => none
      | some (a, f, s) => some (a, { width := f.width, sp := f.sp }, s)
    else if c = 124 ∨ c = 41 then none
    else if isMult c then none
    else if c = 92 then
      match t with
      | [] => none
      | d :: t' =>
        let (a, s) := regnode 8 { s with rest := t' }
        some (a, { width := true, simple := true }, regc ([d] ++ [0]) s)
    else
      let len := runLength (c :: t)
      if len = 0 then none
      else
        let (a, s) := regnode 8 { s with rest := (c :: t).drop len }
        some (a, { width := true, simple := len == 1 }, regc ((c :: t).take len ++ [0]) s)

/-- The code generated for an operator after an atom at `ret`. -/
-- models: vital/kwiversys/RegularExpression.cxx:563-594
def quantify (op : Nat) (simple : Bool) (ret : Nat) (s : CS) : Option CS :=
  if op = 42 ∧ simple then some (reginsert 10 ret s)
  else if op = 42 then do
    let s := reginsert 6 ret s
    let (b, s) := regnode 7 s
    let s ← regoptail ret b s
    let s ← regoptail ret ret s
    let (c, s) := regnode 6 s
    let s ← regtail ret c s
    let (d, s) := regnode 9 s
    regtail ret d s
  else if op = 43 ∧ simple then some (reginsert 11 ret s)
  else if op = 43 then do
    let (nx, s) := regnode 6 s
    let s ← regtail ret nx s
    let (b, s) := regnode 7 s
    let s ← regtail b ret s
    let (c, s) := regnode 6 s
    let s ← regtail nx c s
    let (d, s) := regnode 9 s
    regtail ret d s
  else do
    let s := reginsert 6 ret s
    let (c, s) := regnode 6 s
    let s ← regtail ret c s
    let (d, s) := regnode 9 s
    let s ← regtail ret d s
    regoptail ret d s

-- models: vital/kwiversys/RegularExpression.cxx:541-602 (regpiece)
def regpiece (reg : CS → CRes) (s : CS) : CRes :=
  match regatom reg s with
  | none => none
  | some (ret, f, s) =>
    match s.rest with
    | [] => some (ret, f, s)
    | op :: t =>
      if isMult op = false then some (ret, f, s)
      else if f.width = false ∧ op ≠ 63 then none
      else
        match quantify op f.simple ret s with
        | none => none
        | some s =>
          match t with
          | c :: _ => if isMult c then none else some (ret, { width := op == 43, sp := op != 43 }, { s with rest := t })
          | [] => some (ret, { width := op == 43, sp := op != 43 }, { s with rest := t })

/-- The loop of `regbranch`: `chain` is the latest piece, if any. The first argument bounds the iterations. -/
-- models: vital/kwiversys/RegularExpression.cxx:514-524
def branchLoop (reg : CS → CRes) : Nat → Option Nat → Flags → CS → Option (Option Nat × Flags × CS)
  | 0, _, _, _ => none
  | n + 1, chain, fl, s =>
    match s.rest with
    | [] => some (chain, fl, s)
    | c :: _ =>
      if c = 124 ∨ c = 41 then some (chain, fl, s)
      else
        match regpiece reg s with
        | none => none
        | some (latest, f, s) =>
          match chain with
          | none => branchLoop reg n (some latest) { width := fl.width || f.width, sp := fl.sp || f.sp } s
          | some ch =>
            match regtail ch latest s with
            | none => none
            | some s => branchLoop reg n (some latest) { width := fl.width || f.width, sp := fl.sp } s

-- models: vital/kwiversys/RegularExpression.cxx:504-529 (regbranch)
def regbranch (reg : CS → CRes) (s : CS) : CRes :=
  let (ret, s) := regnode 6 s
  match branchLoop reg (s.rest.length + 1) none {} s with
  | none => none
  | some (some _, fl, s) => some (ret, fl, s)
  | some (none, fl, s) => some (ret, fl, (regnode 9 s).2)

/-- The loop over further alternatives. -/
-- models: vital/kwiversys/RegularExpression.cxx:465-474
def altLoop (reg : CS → CRes) (ret : Nat) : Nat → Flags → CS → Option (Flags × CS)
  | 0, _, _ => none
  | n + 1, fl, s =>
    match s.rest with
    | 124 :: t =>
      match regbranch reg { s with rest := t } with
      | none => none
      | some (br, f, s) =>
        match regtail ret br s with
        | none => none
        | some s => altLoop reg ret n { width := fl.width && f.width, sp := fl.sp || f.sp } s
    | _ => some (fl, s)

/-- `reg`; the first argument bounds the depth of nesting (at most nine parentheses can be open). -/
-- models: vital/kwiversys/RegularExpression.cxx:430-502 (reg)
def reg : Nat → Bool → CS → CRes
  | 0, _, _ => none
  | n + 1, paren, s =>
    if paren ∧ 10 ≤ s.npar then none
    else
      let parno := s.npar
      let (op, s) := if paren then regnode (20 + parno) { s with npar := parno + 1 } else (0, s)
      match regbranch (reg n true) s with
      | none => none
      | some (br, f, s) =>
        let ret := if paren then op else br
        match (if paren then regtail op br s else some s) with
        | none => none
        | some s =>
          match altLoop (reg n true) ret (s.rest.length + 1) { width := f.width, sp := f.sp } s with
          | none => none
          | some (fl, s) =>
            let (ender, s) := regnode (if paren then 30 + parno else 0) s
            match regtail ret ender s with
            | none => none
            | some s =>
              match optailLoop ender ((s.mem.getD []).length + 1) ret s with
              | none => none
              | some s =>
                if paren then
                  match s.rest with
                  | 41 :: t => some (ret, fl, { s with rest := t })
                  | _ => none
                else
                  match s.rest with
                  | [] => some (ret, fl, s)
                  | _ => none

/-- A compiled expression: the members of the class that `find` uses. `must` is the string at `regmust`, with `regmlen` bytes. -/
-- models: vital/kwiversys/RegularExpression.hxx.in:320-330
structure Prog where
  code : List Nat
  start : Nat
  anch : Bool
  must : Option (List Nat)

/-- The loop that looks for the longest literal; `none` when it reads outside the program. -/
-- models: vital/kwiversys/RegularExpression.cxx:407-417
def mustLoop (code : List Nat) : Nat → Nat → Option (List Nat) → Option (Option (List Nat))
  | 0, _, _ => none
  | n + 1, scan, best =>
    match code[scan]? with
    | none => none
    | some op =>
      let best' : Option (Option (List Nat)) :=
        if op = 8 then
          match cstr code (scan + 3) with
          | none => none
          | some s => some (if (best.getD []).length ≤ s.length then some s else best)
        else some best
      match best' with
      | none => none
      | some b =>
        match regnext code scan with
        | none => some b
        | some t => mustLoop code n t b

/-- The information for optimizations. -/
-- models: vital/kwiversys/RegularExpression.cxx:386-419
def dig (code : List Nat) (sp : Bool) : Option Prog :=
  match regnext code 1 with
  | none => none
  | some t =>
    if code[t]? = some 0 then
      let scan := 4
      let start := if code[scan]? = some 8 then code[scan + 3]?.getD 0 else 0
      let anch := code[scan]? == some 1
      if sp then (mustLoop code (code.length + 1) scan none).map (fun m => ⟨code, start, anch, m⟩)
      else some ⟨code, start, anch, none⟩
    else some ⟨code, 0, false, none⟩

/-- Why `compile` does not succeed: it returns false, or (`crash`) it accesses memory outside the program. -/
inductive CErr where
  | refused
  | crash
deriving DecidableEq

/-- `compile`: the first pass counts, the second writes a program of that size. -/
-- models: vital/kwiversys/RegularExpression.cxx:346-421 (compile)
def compile (exp : List Nat) : Except CErr Prog :=
  match reg 11 false (regc [156] ⟨exp, 1, 0, none⟩) with
  | none => .error .refused
  | some (_, _, s1) =>
    if 32767 ≤ s1.size then .error .refused
    else
      match reg 11 false (regc [156] ⟨exp, 1, 0, some []⟩) with
      | none => .error .crash
      | some (_, f, s2) =>
        match s2.mem with
        | none => .error .crash
        | some code =>
          if s1.size < code.length then .error .crash
          else
            match dig code f.sp with
            | none => .error .crash
            | some p => .ok p

/-! ### Matching -/

/-- `startp` and `endp` by number, as positions in the text; `none` is a null pointer. -/
structure Caps where
  st : Nat → Option Nat
  en : Nat → Option Nat

def Caps.none : Caps := ⟨fun _ => Option.none, fun _ => Option.none⟩

/-- Assignments made only when the pointer is still null. -/
-- models: vital/kwiversys/RegularExpression.cxx:1047-1048, 1075-1076
def Caps.setSt (c : Caps) (no pos : Nat) : Caps :=
  if c.st no = Option.none then { c with st := fun i => if i = no then some pos else c.st i } else c
def Caps.setEn (c : Caps) (no pos : Nat) : Caps :=
  if c.en no = Option.none then { c with en := fun i => if i = no then some pos else c.en i } else c

/-- Result of `regmatch`: out of steps (the model's bound), bad memory access or "memory corrupted", no match, or a match with
    the text left at `reginput` and the pointers. -/
inductive Res where
  | out
  | bad
  | fail
  | ok (u : List Nat) (c : Caps)

/-- The loop over the alternatives of a choice. `go` is `regmatch` on an address and the text left. -/
-- models: vital/kwiversys/RegularExpression.cxx:1090-1099
def tryBranches (go : Nat → List Nat → Res) (code : List Nat) (u : List Nat) : Nat → Nat → Res
  | 0, _ => .out
  | n + 1, scan =>
    match go (scan + 3) u with
    | .fail =>
      match regnext code scan with
      | none => .fail
      | some t => if code[t]? = some 6 then tryBranches go code u n t else .fail
    | r => r

/-- The loop over the numbers of repetitions, from `no` down to `min`. -/
-- models: vital/kwiversys/RegularExpression.cxx:1122-1131
def tryCounts (go : List Nat → Res) (nextch min : Nat) (save : List Nat) : Nat → Res
  | 0 =>
    if min ≤ 0 then
      if nextch = 0 ∨ save.headD 0 = nextch then go save else .fail
    else .fail
  | no + 1 =>
    if min ≤ no + 1 then
      if nextch = 0 ∨ (save.drop (no + 1)).headD 0 = nextch then
        match go (save.drop (no + 1)) with
        | .fail => tryCounts go nextch min save no
        | r => r
      else tryCounts go nextch min save no
    else .fail

/-- `regrepeat` on the node `p`; `none`: called inappropriately or a bad memory access. -/
-- models: vital/kwiversys/RegularExpression.cxx:1160-1203 (regrepeat)
def regrepeat (code : List Nat) (p : Nat) (u : List Nat) : Option Nat :=
  match code[p]?, code[p + 3]? with
  | some op, b =>
    if op = 3 then some u.length
    else if op = 8 then b.map (fun c => (u.takeWhile (fun x => x == c)).length)
    else if op = 4 then (cstr code (p + 3)).map (fun s => (u.takeWhile (fun x => s.contains x)).length)
    else if op = 5 then (cstr code (p + 3)).map (fun s => (u.takeWhile (fun x => !s.contains x)).length)
    else none
  | none, _ => none

/-- `regmatch` at the node `scan` with the text `u` left of a line of length `len`. The pointers are only assigned after the rest has matched,
    so they are part of a successful result. The first argument bounds the steps. -/
-- models: vital/kwiversys/RegularExpression.cxx:969-1154 (regmatch)
def regmatch (code : List Nat) (len : Nat) : Nat → Nat → List Nat → Res
  | 0, _, _ => .out
  | n + 1, scan, u =>
    let next := regnext code scan
    let cont (v : List Nat) : Res :=
      match next with
      | none => .bad
      | some t => regmatch code len n t v
    match code[scan]? with
    | none => .bad
    | some op =>
      if op = 1 then if u.length = len then cont u else .fail
      else if op = 2 then if u = [] then cont u else .fail
      else if op = 3 then
        match u with
        | [] => .fail
        | _ :: v => cont v
      else if op = 8 then
        match cstr code (scan + 3) with
        | none => .bad
        | some s =>
          if s.headD 0 ≠ u.headD 0 then .fail
          else if 1 < s.length ∧ s.isPrefixOf u = false then .fail
          else cont (u.drop s.length)
      else if op = 4 then
        match u, cstr code (scan + 3) with
        | _, none => .bad
        | [], _ => .fail
        | c :: v, some s => if s.contains c then cont v else .fail
      else if op = 5 then
        match u, cstr code (scan + 3) with
        | _, none => .bad
        | [], _ => .fail
        | c :: v, some s => if s.contains c then .fail else cont v
      else if op = 9 ∨ op = 7 then cont u
      else if 21 ≤ op ∧ op ≤ 29 then
        match cont u with
        | .ok v c => .ok v (c.setSt (op - 20) (len - u.length))
        | r => r
      else if 31 ≤ op ∧ op ≤ 39 then
        match cont u with
        | .ok v c => .ok v (c.setEn (op - 30) (len - u.length))
        | r => r
      else if op = 6 then
        match next with
        | none => .bad
        | some t =>
          if code[t]? = some 6 then tryBranches (regmatch code len n) code u (code.length + 1) scan
          else regmatch code len n (scan + 3) u
      else if op = 10 ∨ op = 11 then
        match next with
        | none => .bad
        | some t =>
          match code[t]?, regrepeat code (scan + 3) u with
          | some opn, some no =>
            let nextch := if opn = 8 then code[t + 3]?.getD 0 else 0
            tryCounts (regmatch code len n t) nextch (if op = 10 then 0 else 1) u no
          | _, _ => .bad
      else if op = 0 then .ok u Caps.none
      else .bad

/-- A successful find: positions of the match, and of the groups. -/
structure Found where
  s : Nat
  e : Nat
  caps : Caps

/-- Result of `find`. -/
inductive FRes where
  | out
  | bad
  | no
  | yes (f : Found)

-- models: vital/kwiversys/RegularExpression.cxx:936-960 (regtry)
def regtry (p : Prog) (len fuel : Nat) (u : List Nat) : FRes :=
  match regmatch p.code len fuel 1 u with
  | .out => .out
  | .bad => .bad
  | .fail => .no
  | .ok v c => .yes ⟨len - u.length, len - v.length, c⟩

/-- Does the text contain the string? -/
-- models: vital/kwiversys/RegularExpression.cxx:889-898
def hasMust (m : List Nat) : List Nat → Bool
  | [] => false
  | c :: t => if c = m.headD 0 ∧ m.isPrefixOf (c :: t) then true else hasMust m t

/-- Try at each place where the text goes on with `start` (at each place, also the end, if that is 0). -/
-- models: vital/kwiversys/RegularExpression.cxx:907-926
def tryFrom (p : Prog) (len fuel : Nat) : List Nat → FRes
  | [] => if p.start ≠ 0 then .no else regtry p len fuel []
  | c :: t =>
    if p.start ≠ 0 ∧ c ≠ p.start then tryFrom p len fuel t
    else
      match regtry p len fuel (c :: t) with
      | .no => tryFrom p len fuel t
      | r => r

/-- `find` on a text without zero bytes. -/
-- models: vital/kwiversys/RegularExpression.cxx:869-930 (find)
def find (p : Prog) (fuel : Nat) (text : List Nat) : FRes :=
  if (match p.must with | some m => hasMust m text | none => true) = false then .no
  else if p.anch then regtry p text.length fuel text
  else tryFrom p text.length fuel text

/-- Bytes of a string constant. -/
def bytes (s : String) : List Nat := s.toList.map Char.toNat

/-- Compile and find, for examples: positions of the match and of the first groups. -/
def tryIt (pat text : String) : Option (Nat × Nat × List (Option (Nat × Nat))) :=
  match compile (bytes pat) with
  | .error _ => none
  | .ok p =>
    match find p 1000 (bytes text) with
    | .yes f => some (f.s, f.e, [1, 2, 3].map (fun i => match f.caps.st i, f.caps.en i with | some a, some b => some (a, b) | _, _ => none))
    | _ => none

end Vital.Regex
