import Verif.Basic.Decimal
/-
  Model of vital/kwiversys/ProcessUNIX.c:2610-2712 (kwsysProcessKill on Linux, with /proc): the children of a process are looked
  up in the `stat` files under /proc and killed first; properties C201, C202.

  Processes are numbered in the order of their creation, and the number is the process identifier (0 is not a process, 1 is init);
  no identifier is reused during the call.  Before every signal and every `readdir` the processes that are neither stopped nor dead
  may fork and change their names (`sched`); they do not exit by themselves.  A killed process stays a zombie with a `stat` file.
  The directory listing may have any order, may repeat names and may contain any other names, but a process that exists when /proc is opened is
  listed.  Names have no NUL; a stopped process does not run any more; descriptors do not run out.  Where /proc cannot be opened the code runs `ps`, which is not modelled.
-/
namespace Vital.Proc.KillTree

/-! ### The `stat` file -/

/-- The text of /proc/pid/stat: the name of the command is in parentheses and may contain anything. -/
-- models: the kernel's proc(5) stat file; `rest` are the fields after ppid
def statText (pid : Nat) (comm : Str) (state : Char) (ppid : Nat) (rest : Str) : Str :=
  natStr pid ++ ' ' :: '(' :: comm ++ ')' :: ' ' :: state :: ' ' :: natStr ppid ++ rest

/-- `strrchr( s, ')' ) + 1` -/
def afterLast : Str → Option Str
  | [] => none
  | c :: s => match afterLast s with
    | some r => some r
    | none => if c = ')' then some s else none

/-- `sscanf( s, "%*s %d", &ppid )` -/
def scanPpid (s : Str) : Option Int :=
  (readInt (-2147483648) 2147483647 ((ltrim s).dropWhile (fun c => !isSpace c))).map Prod.fst

/-- The parent read from a `stat` file of which the first 1024 bytes are read. -/
-- models: vital/kwiversys/ProcessUNIX.c:2657-2668
def parsePpid (text : Str) : Option Int := (afterLast (text.take 1024)).bind scanPpid

/-! ### The processes -/

structure P where
  comm : Str
  ppid : Nat
  /-- the parent that created it (ghost) -/
  orig : Nat
  stopped : Bool
  dead : Bool
  deriving DecidableEq, Repr

inductive Ev where
  | fork (a : Nat)
  | rename (a : Nat) (comm : Str)
  deriving DecidableEq, Repr

structure K where
  procs : List P
  sched : List (List Ev)
  /-- the number of times /proc has been opened -/
  scans : Nat
  /-- the processes that got SIGSTOP or SIGKILL -/
  hit : List Nat
  deriving DecidableEq, Repr

def P.active (c : P) : Bool := !c.stopped && !c.dead

def event (l : List P) : Ev → List P
  | .fork a => match l[a]? with
    | some c => if c.active then l ++ [⟨c.comm, a, a, false, false⟩] else l
    | none => l
  | .rename a n => match l[a]? with
    | some c => if c.active then l.set a { c with comm := n.take 64 } else l
    | none => l

def tick (k : K) : K :=
  match k.sched with
  | [] => k
  | e :: r => { k with sched := r, procs := e.foldl event k.procs }

-- models: kill( p, SIGSTOP )
def stop (k : K) (p : Nat) : K :=
  match k.procs[p]? with
  | some c => { k with procs := k.procs.set p { c with stopped := true }, hit := k.hit ++ [p] }
  | none => k

/-- The orphans go to init. -/
def orphan (p : Nat) (c : P) : P := if c.ppid = p then { c with ppid := 1 } else c

-- models: kill( p, SIGKILL ); what the kernel does with the children
def die (k : K) (p : Nat) : K :=
  match k.procs[p]? with
  | some c => { k with procs := (k.procs.set p { c with dead := true }).map (orphan p), hit := k.hit ++ [p] }
  | none => k

/-- The parent found in the `stat` file of process q, if there is such a file. -/
def parentOf (l : List P) (q : Nat) : Option Int :=
  match l[q]? with
  | some c => parsePpid (statText q c.comm 'S' c.ppid (c!" 0 0"))
  | none => none

/-- `sscanf( d->d_name, "%d", &pid ) == 1 && pid != 0`; a negative number names no `stat` file. -/
def pidOf (nm : Str) : Option Nat :=
  match readInt (-2147483648) 2147483647 nm with
  | some (v, _) => if v > 0 then some v.toNat else none
  | none => none

/-- `ls i n`: the listing of /proc when it is opened for the i-th time and n identifiers exist. -/
-- models: vital/kwiversys/ProcessUNIX.c:2610-2712 (kwsysProcessKill); `none`: not enough fuel
def killTree (ls : Nat → Nat → List Str) : Nat → K → Nat → Option K
  | 0, _, _ => none
  | f + 1, k, p =>
    let k1 := stop (tick k) p
    ((ls k1.scans k1.procs.length).foldlM (fun (k : K) nm =>
      match pidOf nm with
      | some q => if parentOf (tick k).procs q = some (p : Int) then killTree ls f (tick k) q else some (tick k)
      | none => some (tick k)) { k1 with scans := k1.scans + 1 }).map (fun k => die (tick k) p)

/-! ### Proofs: the `stat` file -/

theorem afterLast_none {s : Str} (h : ')' ∉ s) : afterLast s = none := by
  induction s with
  | nil => rfl
  | cons c s ih =>
    simp only [List.mem_cons, not_or] at h
    simp [afterLast, ih h.2, Ne.symm h.1]

theorem afterLast_append (a b : Str) (h : ')' ∉ b) : afterLast (a ++ ')' :: b) = some b := by
  induction a with
  | nil => simp [afterLast, afterLast_none h]
  | cons c a ih => simp [afterLast, ih]

theorem digit_not_paren {c : Char} (h : isDigit c = true) : c ≠ ')' := by rintro rfl; revert h; decide

theorem natStrF_length (d : Nat) : ∀ f n, n < 10 ^ (d + 1) → (natStrF f n).length ≤ d + 1 := by
  induction d with
  | zero =>
    intro f n h
    cases f with
    | zero => simp [natStrF]
    | succ f =>
      have : n < 10 := by simpa using h
      simp [natStrF, this]
  | succ d ih =>
    intro f n h
    cases f with
    | zero => simp [natStrF]
    | succ f =>
      simp only [natStrF]
      split
      · simp
      · have : n / 10 < 10 ^ (d + 1) := by
          rw [Nat.div_lt_iff_lt_mul (by decide)]
          rw [Nat.pow_succ] at h; exact h
        have := ih f (n / 10) this
        simp; omega

theorem natStr_length {n : Nat} (h : n ≤ 2147483647) : (natStr n).length ≤ 10 :=
  natStrF_length 9 _ _ (by omega)

theorem readInt_nat (n : Nat) (hn : n ≤ 2147483647) (ws rest : Str) (hw : ∀ c ∈ ws, isSpace c = true) (hr : ∀ c, rest.head? = some c → isDigit c = false) :
    readInt (-2147483648) 2147483647 (ws ++ natStr n ++ rest) = some ((n : Int), rest) := by
  have h := readInt_intStr (-2147483648) 2147483647 n (by omega) (by omega) rest hr ws hw
  have : intStr (n : Int) = natStr n := by simp [intStr]
  rwa [this] at h

/-! ### C201: the parent of a process is read correctly -/

/-- Whatever the name of a process is — blanks, parentheses, digits, line breaks —, the number found in its `stat` file is that of its parent. -/
theorem C201_parent (pid ppid : Nat) (comm : Str) (state : Char) (rest : Str) (h1 : pid ≤ 2147483647) (h2 : ppid ≤ 2147483647) (hc : comm.length ≤ 64)
    (hs : state ≠ ')') (hs2 : isSpace state = false) (hr : ')' ∉ rest) (hr2 : rest = [] ∨ ∃ r, rest = ' ' :: r) :
    parsePpid (statText pid comm state ppid rest) = some (ppid : Int) := by
  have l1 := natStr_length h1
  have l2 := natStr_length h2
  have e : statText pid comm state ppid rest = (natStr pid ++ ' ' :: '(' :: comm ++ ')' :: ' ' :: state :: ' ' :: natStr ppid) ++ rest := by simp [statText]
  have hl : (natStr pid ++ ' ' :: '(' :: comm ++ ')' :: ' ' :: state :: ' ' :: natStr ppid).length ≤ 1024 := by simp; omega
  rw [parsePpid, e, List.take_append, List.take_of_length_le hl]
  generalize hn : 1024 - _ = n
  have hr' : ')' ∉ rest.take n := fun h => hr (List.mem_of_mem_take h)
  have e2 : natStr pid ++ ' ' :: '(' :: comm ++ ')' :: ' ' :: state :: ' ' :: natStr ppid ++ rest.take n =
      (natStr pid ++ ' ' :: '(' :: comm) ++ ')' :: (' ' :: state :: ' ' :: (natStr ppid ++ rest.take n)) := by simp
  rw [e2, afterLast_append]
  · simp only [Option.bind_some, scanPpid]
    have e3 : ltrim (' ' :: state :: ' ' :: (natStr ppid ++ rest.take n)) = state :: ' ' :: (natStr ppid ++ rest.take n) := by
      have : isSpace ' ' = true := by decide
      simp [ltrim, this, hs2]
    have e4 : (state :: ' ' :: (natStr ppid ++ rest.take n)).dropWhile (fun c => !isSpace c) = [' '] ++ natStr ppid ++ rest.take n := by
      have : isSpace ' ' = true := by decide
      simp [hs2, this]
    rw [e3, e4, readInt_nat ppid h2 [' '] _ (by intro c hc; simp at hc; subst hc; decide)]
    · rfl
    · intro c hc
      rcases hr2 with rfl | ⟨r, rfl⟩
      · simp at hc
      · cases n with
        | zero => simp at hc
        | succ n => simp at hc; subst hc; decide
  · simp only [List.mem_cons, List.mem_append, not_or]
    refine ⟨by decide, fun h => hs h.symm, by decide, fun h => ?_, hr'⟩
    exact digit_not_paren (natStr_digits ppid _ h) rfl

example : parsePpid (statText 42 (c!"a) R 1 (b") 'S' 7 (c!" 42 0")) = some 7 := by decide +kernel

/-! ### Specification: the tree below a process -/

/-- `q` is `p` or was created by a descendant of `p`. -/
inductive Desc (l : List P) (p : Nat) : Nat → Prop
  | self : Desc l p p
  | child {q r : Nat} {c : P} : 0 < q → l[q]? = some c → c.orig = r → Desc l p r → Desc l p q

/-- Everything the listing must contain. -/
def Complete (ls : Nat → Nat → List Str) : Prop := ∀ i n q, q < n → natStr q ∈ ls i n

/-- Processes as they are when nobody has been killed: the parent is the creator, which is older (0 and 1 have no parent but 0). -/
def Healthy (l : List P) : Prop := ∀ (q : Nat) (c : P), l[q]? = some c → c.ppid = c.orig ∧ c.dead = false ∧ c.comm.length ≤ 64 ∧ (0 < q → c.orig < q) ∧ (q = 0 → c.orig = 0)

def forks (s : List (List Ev)) : Nat := (s.map List.length).sum

/-! ### Proofs: the tree -/

structure Inv (l : List P) : Prop where
  older : ∀ (q : Nat) (c : P), l[q]? = some c → 0 < q → c.orig < q
  closed : ∀ (q : Nat) (c d : P), 0 < q → l[q]? = some c → l[c.orig]? = some d → d.dead = true → c.dead = true
  parent : ∀ (q : Nat) (c : P), l[q]? = some c → c.ppid = c.orig ∨ c.ppid = 1
  parent2 : ∀ (q : Nat) (c d : P), 0 < q → l[q]? = some c → l[c.orig]? = some d → d.dead = false → c.ppid = c.orig
  short : ∀ (q : Nat) (c : P), l[q]? = some c → c.comm.length ≤ 64

/-- nothing is forgotten, and stopped processes have no new children -/
structure Ext (l l' : List P) : Prop where
  len : l.length ≤ l'.length
  keep : ∀ (q : Nat) (c : P), l[q]? = some c → ∃ c', l'[q]? = some c' ∧ c'.orig = c.orig ∧ (c.dead = true → c'.dead = true) ∧ (c.active = false → c'.active = false)
  fresh : ∀ (q : Nat) (c' : P), l.length ≤ q → l'[q]? = some c' → ∀ c, l[c'.orig]? = some c → c.active = true

theorem Ext.refl (l : List P) : Ext l l := ⟨Nat.le_refl _, fun _ c h => ⟨c, h, rfl, id, id⟩, fun q c' hq h => by
  have := (List.getElem?_eq_some_iff.mp h).1; omega⟩

theorem Ext.trans {a b c : List P} (h1 : Ext a b) (h2 : Ext b c) : Ext a c := by
  refine ⟨Nat.le_trans h1.len h2.len, ?_, ?_⟩
  · intro q x hx
    obtain ⟨y, hy, e1, e2, e3⟩ := h1.keep q x hx
    obtain ⟨z, hz, f1, f2, f3⟩ := h2.keep q y hy
    exact ⟨z, hz, f1.trans e1, fun h => f2 (e2 h), fun h => f3 (e3 h)⟩
  · intro q z hq hz x hx
    obtain ⟨y, hy, e1, e2, e3⟩ := h1.keep _ x hx
    by_cases hb : b.length ≤ q
    · have := h2.fresh q z hb hz y hy
      cases ha : x.active with
      | true => rfl
      | false => rw [e3 ha] at this; cases this
    · have hlt : q < b.length := by omega
      obtain ⟨z', hz', f1, _⟩ := h2.keep q b[q] (List.getElem?_eq_getElem hlt)
      rw [hz] at hz'; cases hz'
      refine h1.fresh q b[q] hq (List.getElem?_eq_getElem hlt) x ?_
      rw [← f1]; exact hx

theorem desc_ext {l l' : List P} (h : Ext l l') {p q : Nat} (hd : Desc l p q) : Desc l' p q := by
  induction hd with
  | self => exact .self
  | child h0 hc ho _ ih =>
    obtain ⟨c', h1, h2, _⟩ := h.keep _ _ hc
    exact .child h0 h1 (h2.trans ho) ih

/-- a step that keeps the list and changes the name or stops a process -/
theorem set_inv {l : List P} (h : Inv l) {a : Nat} {c : P} (hc : l[a]? = some c) (c' : P) (h1 : c'.orig = c.orig) (h2 : c'.ppid = c.ppid)
    (h3 : c'.dead = c.dead) (h4 : c'.comm.length ≤ 64) (h5 : c.active = false → c'.active = false) : Inv (l.set a c') ∧ Ext l (l.set a c') := by
  have hal : a < l.length := (List.getElem?_eq_some_iff.mp hc).1
  have hget : ∀ (q : Nat) (d : P), (l.set a c')[q]? = some d → ∃ x : P, l[q]? = some x ∧ d.orig = x.orig ∧ d.ppid = x.ppid ∧ d.dead = x.dead ∧
      (x.active = false → d.active = false) ∧ d.comm.length ≤ 64 := by
    intro q d hd
    rw [List.getElem?_set] at hd
    split at hd
    · next hq =>
      subst hq
      simp [hal] at hd
      subst hd
      exact ⟨c, hc, h1, h2, h3, h5, h4⟩
    · exact ⟨d, hd, rfl, rfl, rfl, id, h.short q d hd⟩
  refine ⟨⟨?_, ?_, ?_, ?_, ?_⟩, ⟨by simp, ?_, ?_⟩⟩
  · intro q d hd hq
    obtain ⟨x, hx, e1, _⟩ := hget q d hd
    rw [e1]; exact h.older q x hx hq
  · intro q d d2 hq hd hd2 hdd
    obtain ⟨x, hx, e1, e2, e3, _⟩ := hget q d hd
    obtain ⟨y, hy, f1, f2, f3, _⟩ := hget _ d2 hd2
    rw [e3]; rw [e1] at hy
    exact h.closed q x y hq hx hy (by rw [← f3]; exact hdd)
  · intro q d hd
    obtain ⟨x, hx, e1, e2, _⟩ := hget q d hd
    rw [e1, e2]; exact h.parent q x hx
  · intro q d d2 hq hd hd2 hdd
    obtain ⟨x, hx, e1, e2, e3, _⟩ := hget q d hd
    obtain ⟨y, hy, f1, f2, f3, _⟩ := hget _ d2 hd2
    rw [e1, e2]; rw [e1] at hy
    exact h.parent2 q x y hq hx hy (by rw [← f3]; exact hdd)
  · intro q d hd
    obtain ⟨x, hx, _, _, _, _, e⟩ := hget q d hd
    exact e
  · intro q x hx
    have hlt : q < l.length := (List.getElem?_eq_some_iff.mp hx).1
    have hlt' : q < (l.set a c').length := by simpa using hlt
    obtain ⟨y, hy, e1, e2, e3, e4, _⟩ := hget q _ (List.getElem?_eq_getElem hlt')
    rw [hx] at hy; cases hy
    exact ⟨_, List.getElem?_eq_getElem hlt', e1, fun hh => by rw [e3]; exact hh, e4⟩
  · intro q x hq hx
    have := (List.getElem?_eq_some_iff.mp hx).1
    simp at this; omega

theorem event_inv {l : List P} (h : Inv l) (e : Ev) : Inv (event l e) ∧ Ext l (event l e) := by
  cases e with
  | fork a =>
    simp only [event]
    split
    · next c hc =>
      split
      · next ha =>
        have hal : a < l.length := (List.getElem?_eq_some_iff.mp hc).1
        have hget : ∀ q d, (l ++ [(⟨c.comm, a, a, false, false⟩ : P)])[q]? = some d → l[q]? = some d ∨ (q = l.length ∧ d = ⟨c.comm, a, a, false, false⟩) := by
          intro q d hd
          rw [List.getElem?_append] at hd
          split at hd
          · exact Or.inl hd
          · next hlt =>
            right
            have hq : q - l.length = 0 := by
              have := (List.getElem?_eq_some_iff.mp hd).1
              simp at this; omega
            rw [hq] at hd
            simp at hd
            exact ⟨by omega, hd.symm⟩
        have hold : ∀ q d, q < l.length → (l ++ [(⟨c.comm, a, a, false, false⟩ : P)])[q]? = some d → l[q]? = some d := by
          intro q d hq hd
          rcases hget q d hd with h | h
          · exact h
          · omega
        refine ⟨⟨?_, ?_, ?_, ?_, ?_⟩, ⟨by simp, ?_, ?_⟩⟩
        · intro q d hd hq
          rcases hget q d hd with h' | ⟨h1, h2⟩
          · exact h.older q d h' hq
          · rw [h1, h2]; exact hal
        · intro q x d hq hx hd hdd
          rcases hget q x hx with h' | ⟨h1, h2⟩
          · have := h.older q x h' hq
            have hlt : q < l.length := (List.getElem?_eq_some_iff.mp h').1
            exact h.closed q x d hq h' (hold _ d (by omega) hd) hdd
          · subst h2
            have := hold _ d hal hd
            rw [hc] at this; cases this
            simp [P.active, hdd] at ha
        · intro q x hx
          rcases hget q x hx with h' | ⟨h1, h2⟩
          · exact h.parent q x h'
          · rw [h2]; exact Or.inl rfl
        · intro q x d hq hx hd hdd
          rcases hget q x hx with h' | ⟨h1, h2⟩
          · have := h.older q x h' hq
            have hlt : q < l.length := (List.getElem?_eq_some_iff.mp h').1
            exact h.parent2 q x d hq h' (hold _ d (by omega) hd) hdd
          · rw [h2]
        · intro q x hx
          rcases hget q x hx with h' | ⟨h1, h2⟩
          · exact h.short q x h'
          · rw [h2]; exact h.short a c hc
        · intro q x hx
          have hlt : q < l.length := (List.getElem?_eq_some_iff.mp hx).1
          exact ⟨x, by rw [List.getElem?_append_left hlt]; exact hx, rfl, id, id⟩
        · intro q x hq hx d hd
          rcases hget q x hx with h' | ⟨h1, h2⟩
          · have := (List.getElem?_eq_some_iff.mp h').1; omega
          · subst h2
            rw [hc] at hd; cases hd
            exact ha
      · exact ⟨h, Ext.refl l⟩
    · exact ⟨h, Ext.refl l⟩
  | rename a n =>
    simp only [event]
    split
    · next c hc =>
      split
      · exact set_inv h hc { c with comm := n.take 64 } rfl rfl rfl (by simp; omega) id
      · exact ⟨h, Ext.refl l⟩
    · exact ⟨h, Ext.refl l⟩

theorem events_inv (e : List Ev) {l : List P} (h : Inv l) : Inv (e.foldl event l) ∧ Ext l (e.foldl event l) := by
  induction e generalizing l with
  | nil => exact ⟨h, Ext.refl l⟩
  | cons x e ih =>
    obtain ⟨h1, h2⟩ := event_inv h x
    obtain ⟨h3, h4⟩ := ih h1
    exact ⟨h3, h2.trans h4⟩

theorem tick_inv {k : K} (h : Inv k.procs) : Inv (tick k).procs ∧ Ext k.procs (tick k).procs ∧ (tick k).hit = k.hit := by
  simp only [tick]
  split
  · exact ⟨h, Ext.refl _, rfl⟩
  · next e r _ => exact ⟨(events_inv e h).1, (events_inv e h).2, rfl⟩

/-- the bound on the number of processes -/
def total (k : K) : Nat := k.procs.length + forks k.sched

theorem event_len (l : List P) (e : Ev) : (event l e).length ≤ l.length + 1 := by
  cases e with
  | fork a =>
    simp only [event]
    split
    · split <;> simp
    · simp
  | rename a n =>
    simp only [event]
    split
    · split <;> simp
    · simp

theorem events_len (e : List Ev) (l : List P) : (e.foldl event l).length ≤ l.length + e.length := by
  induction e generalizing l with
  | nil => simp
  | cons x e ih =>
    have := ih (event l x)
    have := event_len l x
    simp only [List.foldl_cons, List.length_cons]
    omega

theorem tick_total (k : K) : total (tick k) ≤ total k := by
  simp only [tick]
  split
  · exact Nat.le_refl _
  · next e r h =>
    have := events_len e k.procs
    simp only [total, h, forks, List.map_cons, List.sum_cons]
    omega

/-! ### Proofs: signals -/

/-- outside of `D` no process is stopped or killed -/
def Same (D : Nat → Prop) (l l' : List P) : Prop :=
  ∀ (q : Nat) (c' : P), l'[q]? = some c' → ¬ D q → (∃ c : P, l[q]? = some c ∧ c.stopped = c'.stopped ∧ c.dead = c'.dead) ∨ (l[q]? = none ∧ c'.stopped = false ∧ c'.dead = false)

theorem Same.refl (D : Nat → Prop) (l : List P) : Same D l l := fun _ c h _ => Or.inl ⟨c, h, rfl, rfl⟩

theorem Same.trans {D : Nat → Prop} {a b c : List P} (h1 : Same D a b) (h2 : Same D b c) (hl : a.length ≤ b.length) : Same D a c := by
  intro q z hz hq
  rcases h2 q z hz hq with ⟨y, hy, e1, e2⟩ | ⟨hn, e⟩
  · rcases h1 q y hy hq with ⟨x, hx, f1, f2⟩ | ⟨hx, f⟩
    · exact Or.inl ⟨x, hx, f1.trans e1, f2.trans e2⟩
    · exact Or.inr ⟨hx, e1 ▸ f.1, e2 ▸ f.2⟩
  · refine Or.inr ⟨?_, e⟩
    rw [List.getElem?_eq_none_iff] at hn ⊢; omega

theorem Same.mono {D D' : Nat → Prop} {a b : List P} (h : Same D a b) (hd : ∀ q, D q → D' q) : Same D' a b :=
  fun q c hc hq => h q c hc (fun hh => hq (hd q hh))

theorem event_same (D : Nat → Prop) (l : List P) (e : Ev) : Same D l (event l e) := by
  cases e with
  | fork a =>
    simp only [event]
    split
    · split
      · intro q c' hc _
        rw [List.getElem?_append] at hc
        split at hc
        · exact Or.inl ⟨c', hc, rfl, rfl⟩
        · next hlt =>
          right
          have hq : q - l.length = 0 := by
            have := (List.getElem?_eq_some_iff.mp hc).1
            simp at this; omega
          rw [hq] at hc
          simp at hc
          subst hc
          exact ⟨by rw [List.getElem?_eq_none_iff]; omega, rfl, rfl⟩
      · exact Same.refl D l
    · exact Same.refl D l
  | rename a n =>
    simp only [event]
    split
    · next c hc0 =>
      split
      · intro q c' hc _
        rw [List.getElem?_set] at hc
        split at hc
        · next hq =>
          subst hq
          split at hc
          · cases hc; exact Or.inl ⟨c, hc0, rfl, rfl⟩
          · cases hc
        · exact Or.inl ⟨c', hc, rfl, rfl⟩
      · exact Same.refl D l
    · exact Same.refl D l

theorem events_same (D : Nat → Prop) (e : List Ev) {l : List P} (h : Inv l) : Same D l (e.foldl event l) := by
  induction e generalizing l with
  | nil => exact Same.refl D l
  | cons x e ih => exact (event_same D l x).trans (ih (event_inv h x).1) (event_inv h x).2.len

theorem tick_same (D : Nat → Prop) {k : K} (h : Inv k.procs) : Same D k.procs (tick k).procs := by
  simp only [tick]
  split
  · exact Same.refl D _
  · next e r _ => exact events_same D e h

theorem stop_ok {k : K} (h : Inv k.procs) {p : Nat} (hp : p < k.procs.length) :
    Inv (stop k p).procs ∧ Ext k.procs (stop k p).procs ∧ (∃ c : P, (stop k p).procs[p]? = some c ∧ c.active = false) ∧ (stop k p).hit = k.hit ++ [p] ∧
      total (stop k p) = total k ∧ Same (· = p) k.procs (stop k p).procs := by
  have hc := List.getElem?_eq_getElem hp
  generalize k.procs[p] = c at hc
  simp only [stop, hc]
  obtain ⟨h1, h2⟩ := set_inv h hc { c with stopped := true } rfl rfl rfl (h.short p c hc) (fun _ => by simp [P.active])
  refine ⟨h1, h2, ⟨{ c with stopped := true }, by simp [hp], by simp [P.active]⟩, trivial, by simp [total], ?_⟩
  intro q c' hq hne
  rw [List.getElem?_set] at hq
  split at hq
  · next e => exact absurd e.symm hne
  · exact Or.inl ⟨c', hq, rfl, rfl⟩

theorem die_ok {k : K} (h : Inv k.procs) {p : Nat} (hp : p < k.procs.length) (h0 : 1 < p)
    (hch : ∀ (q : Nat) (c : P), 0 < q → k.procs[q]? = some c → c.orig = p → c.dead = true) :
    Inv (die k p).procs ∧ Ext k.procs (die k p).procs ∧ (∃ c : P, (die k p).procs[p]? = some c ∧ c.dead = true) ∧ (die k p).hit = k.hit ++ [p] ∧
      total (die k p) = total k ∧ Same (· = p) k.procs (die k p).procs := by
  have hc := List.getElem?_eq_getElem hp
  generalize k.procs[p] = c at hc
  simp only [die, hc]
  generalize hl : k.procs = l at *
  have hget : ∀ (q : Nat) (d : P), ((l.set p { c with dead := true }).map (orphan p))[q]? = some d →
      ∃ x : P, l[q]? = some x ∧ d.orig = x.orig ∧ d.stopped = x.stopped ∧ d.comm = x.comm ∧ (d.dead = if q = p then true else x.dead) ∧
        d.ppid = (if x.ppid = p then 1 else x.ppid) := by
    intro q d hd
    rw [List.getElem?_map, List.getElem?_set] at hd
    split at hd
    · next hq =>
      subst hq
      simp [hp] at hd
      subst hd
      refine ⟨c, hc, ?_⟩
      simp only [orphan]; split <;> simp_all
    · next hq =>
      cases hx : l[q]? with
      | none => simp [hx] at hd
      | some x =>
        simp [hx] at hd
        subst hd
        refine ⟨x, rfl, ?_⟩
        simp only [orphan, Ne.symm hq, if_false]; split <;> simp_all
  have hmem : ∀ q : Nat, q < l.length → ∃ d, ((l.set p { c with dead := true }).map (orphan p))[q]? = some d := by
    intro q hq
    exact ⟨_, List.getElem?_eq_getElem (by simpa using hq)⟩
  refine ⟨⟨?_, ?_, ?_, ?_, ?_⟩, ⟨by simp, ?_, ?_⟩, ?_, trivial, by simp [total, hl], ?_⟩
  · intro q d hd hq
    obtain ⟨x, hx, e1, _⟩ := hget q d hd
    rw [e1]; exact h.older q x hx hq
  · intro q d d2 hq hd hd2 hdd
    obtain ⟨x, hx, e1, e2, e3, e4, e5⟩ := hget q d hd
    obtain ⟨y, hy, f1, f2, f3, f4, f5⟩ := hget _ d2 hd2
    rw [e4]
    rw [e1] at hy f4
    split
    · rfl
    · by_cases ho : x.orig = p
      · exact hch q x hq hx ho
      · rw [if_neg ho] at f4
        exact h.closed q x y hq hx hy (f4 ▸ hdd)
  · intro q d hd
    obtain ⟨x, hx, e1, e2, e3, e4, e5⟩ := hget q d hd
    rw [e1, e5]
    split
    · exact Or.inr rfl
    · exact h.parent q x hx
  · intro q d d2 hq hd hd2 hdd
    obtain ⟨x, hx, e1, e2, e3, e4, e5⟩ := hget q d hd
    obtain ⟨y, hy, f1, f2, f3, f4, f5⟩ := hget _ d2 hd2
    rw [e1] at hy f4
    by_cases ho : x.orig = p
    · rw [if_pos ho] at f4; rw [f4] at hdd; cases hdd
    · rw [if_neg ho] at f4
      have := h.parent2 q x y hq hx hy (f4 ▸ hdd)
      rw [e1, e5, this, if_neg ho]
  · intro q d hd
    obtain ⟨x, hx, e1, e2, e3, e4, e5⟩ := hget q d hd
    rw [e3]; exact h.short q x hx
  · intro q x hx
    obtain ⟨d, hd⟩ := hmem q (List.getElem?_eq_some_iff.mp hx).1
    obtain ⟨y, hy, e1, e2, e3, e4, e5⟩ := hget q d hd
    rw [hx] at hy; cases hy
    have hdd : x.dead = true → d.dead = true := by
      intro hh; rw [e4]; split
      · rfl
      · exact hh
    refine ⟨d, hd, e1, hdd, ?_⟩
    simp only [P.active, e2]
    cases hs : x.stopped with
    | true => simp
    | false =>
      intro hh
      have : x.dead = true := by simpa using hh
      simp [hdd this]
  · intro q x hq hx
    have := (List.getElem?_eq_some_iff.mp hx).1
    simp at this; omega
  · obtain ⟨d, hd⟩ := hmem p hp
    obtain ⟨y, hy, e1, e2, e3, e4, e5⟩ := hget p d hd
    exact ⟨d, hd, by rw [e4, if_pos rfl]⟩
  · intro q d hd hne
    obtain ⟨x, hx, e1, e2, e3, e4, e5⟩ := hget q d hd
    rw [if_neg hne] at e4
    exact Or.inl ⟨x, hx, e2.symm, e4.symm⟩

theorem desc_trans {l : List P} {p q r : Nat} (h1 : Desc l p q) (h2 : Desc l q r) : Desc l p r := by
  induction h2 with
  | self => exact h1
  | child h0 hc ho _ ih => exact .child h0 hc ho ih

theorem pidOf_natStr {q : Nat} (h0 : 0 < q) (h : q ≤ 2147483647) : pidOf (natStr q) = some q := by
  have := readInt_nat q h [] [] (by simp) (by simp)
  simp only [List.nil_append, List.append_nil] at this
  simp only [pidOf, this]
  simp; omega

theorem pidOf_pos {nm : Str} {q : Nat} (h : pidOf nm = some q) : 0 < q := by
  simp only [pidOf] at h
  split at h
  · split at h
    · cases h; omega
    · cases h
  · cases h

theorem parentOf_eq {l : List P} (h : Inv l) (hl : l.length ≤ 2147483647) {q : Nat} (h0 : 0 < q) {c : P} (hc : l[q]? = some c) : parentOf l q = some (c.ppid : Int) := by
  have hq := (List.getElem?_eq_some_iff.mp hc).1
  have := h.older q c hc h0
  have hp : c.ppid ≤ 2147483647 := by rcases h.parent q c hc with e | e <;> omega
  simp only [parentOf, hc]
  exact C201_parent q c.ppid c.comm 'S' _ (by omega) hp (h.short q c hc) (by decide) (by decide) (by decide) (Or.inr ⟨c!"0 0", rfl⟩)

/-! ### The whole call -/

/-- What a call does. -/
structure Post (k : K) (p : Nat) (k' : K) : Prop where
  inv : Inv k'.procs
  ext : Ext k.procs k'.procs
  gone : ∃ c : P, k'.procs[p]? = some c ∧ c.dead = true
  hits : ∀ q ∈ k'.hit, q ∈ k.hit ∨ Desc k'.procs p q
  tot : total k' ≤ total k
  same : Same (Desc k'.procs p) k.procs k'.procs

/-- The state inside the loop over the listing. -/
structure Loop (k : K) (p : Nat) (done : List Str) (k' : K) : Prop where
  inv : Inv k'.procs
  ext : Ext k.procs k'.procs
  gone : ∀ (q : Nat) (c : P), natStr q ∈ done → 0 < q → k.procs[q]? = some c → c.orig = p → ∃ c' : P, k'.procs[q]? = some c' ∧ c'.dead = true
  hits : ∀ q ∈ k'.hit, q ∈ k.hit ∨ Desc k'.procs p q
  tot : total k' ≤ total k
  same : Same (Desc k'.procs p) k.procs k'.procs

theorem Loop.tick {k : K} {p : Nat} {done : List Str} {k' : K} (h : Loop k p done k') : Loop k p done (tick k') := by
  obtain ⟨h1, h2, h3⟩ := tick_inv h.inv
  refine ⟨h1, h.ext.trans h2, ?_, ?_, Nat.le_trans (tick_total k') h.tot, ?_⟩
  · intro q c hq h0 hc ho
    obtain ⟨c', e1, e2⟩ := h.gone q c hq h0 hc ho
    obtain ⟨c'', f1, _, f3, _⟩ := h2.keep q c' e1
    exact ⟨c'', f1, f3 e2⟩
  · intro q hq
    rw [h3] at hq
    exact (h.hits q hq).imp id (desc_ext h2)
  · exact (h.same.mono (fun q => desc_ext h2)).trans (tick_same _ h.inv) h.ext.len

theorem killTree_ok (ls : Nat → Nat → List Str) (hls : Complete ls) : ∀ (f : Nat) (k : K) (p : Nat), Inv k.procs → 1 < p → p < k.procs.length →
    total k ≤ 2147483647 → total k ≤ f + p → ∃ k', killTree ls f k p = some k' ∧ Post k p k' := by
  intro f
  induction f with
  | zero =>
    intro k p _ _ hp _ hf
    simp only [total] at hf; omega
  | succ f ih =>
    intro k p hi h1 hp hmax hf
    obtain ⟨ti, te, th⟩ := tick_inv hi
    have hp' : p < (tick k).procs.length := Nat.lt_of_lt_of_le hp te.len
    obtain ⟨si, se, ⟨c0, sc, sa⟩, sh, st, ss⟩ := stop_ok ti hp'
    have tt := tick_total k
    simp only [killTree]
    generalize stop (tick k) p = k1 at *
    generalize hk2 : { k1 with scans := k1.scans + 1 } = k2
    have e1 : k2.procs = k1.procs := by rw [← hk2]
    have e2 : k2.hit = k1.hit := by rw [← hk2]
    have e3 : total k2 = total k1 := by rw [← hk2]; rfl
    have loop : ∀ (l : List Str) (done : List Str) (kj : K), Loop k2 p done kj → ∃ k', l.foldlM (fun (k : K) nm =>
        match pidOf nm with
        | some q => if parentOf (tick k).procs q = some (p : Int) then killTree ls f (tick k) q else some (tick k)
        | none => some (tick k)) kj = some k' ∧ Loop k2 p (done ++ l) k' := by
      intro l
      induction l with
      | nil => intro done kj h; exact ⟨kj, rfl, by simpa using h⟩
      | cons nm l ihl =>
        intro done kj h
        have ht := h.tick
        generalize hkt : tick kj = kt at ht
        have hlen : kt.procs.length ≤ total kt := by simp [total]
        have htot := ht.tot
        have hmk : kt.procs.length ≤ 2147483647 := by omega
        have key : ∃ k', (match pidOf nm with
            | some q => if parentOf kt.procs q = some (p : Int) then killTree ls f kt q else some kt
            | none => some kt) = some k' ∧ Loop k2 p (done ++ [nm]) k' := by
          -- a child whose name this is, and which is not found, is dead
          have other : (∀ q, pidOf nm = some q → parentOf kt.procs q ≠ some (p : Int)) → Loop k2 p (done ++ [nm]) kt := by
            intro hno
            refine ⟨ht.inv, ht.ext, ?_, ht.hits, ht.tot, ht.same⟩
            intro q c hq h0 hc ho
            rcases List.mem_append.mp hq with hq | hq
            · exact ht.gone q c hq h0 hc ho
            · obtain ⟨c', hc', f1, _, _⟩ := ht.ext.keep q c hc
              refine ⟨c', hc', ?_⟩
              have hlt := (List.getElem?_eq_some_iff.mp hc').1
              simp only [List.mem_singleton] at hq
              have hne := hno q (by rw [← hq]; exact pidOf_natStr h0 (by omega))
              rw [parentOf_eq ht.inv hmk h0 hc'] at hne
              have hpl : p < kt.procs.length := by
                have := ht.inv.older q c' hc' h0
                rw [f1, ho] at this; omega
              have hd := List.getElem?_eq_getElem hpl
              generalize kt.procs[p] = d at hd
              cases hdd : d.dead with
              | true => exact ht.inv.closed q c' d h0 hc' (by rw [f1, ho]; exact hd) hdd
              | false =>
                have := ht.inv.parent2 q c' d h0 hc' (by rw [f1, ho]; exact hd) hdd
                rw [this, f1, ho] at hne
                exact absurd rfl hne
          cases hpid : pidOf nm with
          | none => exact ⟨kt, rfl, other (by intro q hq; rw [hpid] at hq; cases hq)⟩
          | some q =>
            simp only
            by_cases hpar : parentOf kt.procs q = some (p : Int)
            · rw [if_pos hpar]
              have h0 := pidOf_pos hpid
              cases hc : kt.procs[q]? with
              | none => simp [parentOf, hc] at hpar
              | some c =>
                rw [parentOf_eq ht.inv hmk h0 hc] at hpar
                have hpp : c.ppid = p := by simp only [Option.some.injEq] at hpar; omega
                have ho : c.orig = p := by
                  rcases ht.inv.parent q c hc with e | e
                  · omega
                  · omega
                have hqp := ht.inv.older q c hc h0
                have hql := (List.getElem?_eq_some_iff.mp hc).1
                obtain ⟨k', hk', post⟩ := ih kt q ht.inv (by omega) hql (by omega) (by omega)
                refine ⟨k', hk', ?_⟩
                obtain ⟨c', hc', o1, _⟩ := post.ext.keep q c hc
                have hpq : Desc k'.procs p q := .child h0 hc' (o1.trans ho) .self
                refine ⟨post.inv, ht.ext.trans post.ext, ?_, ?_, Nat.le_trans post.tot ht.tot, ?_⟩
                · intro r x hr hr0 hx hox
                  rcases List.mem_append.mp hr with hr | hr
                  · obtain ⟨y, y1, y2⟩ := ht.gone r x hr hr0 hx hox
                    obtain ⟨z, z1, _, z3, _⟩ := post.ext.keep r y y1
                    exact ⟨z, z1, z3 y2⟩
                  · simp only [List.mem_singleton] at hr
                    obtain ⟨y, y1, _⟩ := ht.ext.keep r x hx
                    have hrl := (List.getElem?_eq_some_iff.mp y1).1
                    have := pidOf_natStr hr0 (show r ≤ 2147483647 by omega)
                    rw [hr, hpid] at this
                    cases this
                    exact post.gone
                · intro r hr
                  rcases post.hits r hr with hr | hr
                  · exact (ht.hits r hr).imp id (desc_ext post.ext)
                  · exact Or.inr (desc_trans hpq hr)
                · exact (ht.same.mono (fun r => desc_ext post.ext)).trans (post.same.mono (fun r => desc_trans hpq)) ht.ext.len
            · rw [if_neg hpar]
              exact ⟨kt, rfl, other (by intro r hr; rw [hpid] at hr; cases hr; exact hpar)⟩
        obtain ⟨k', hk', hl'⟩ := key
        obtain ⟨k'', hk'', hl''⟩ := ihl (done ++ [nm]) k' hl'
        refine ⟨k'', ?_, by simpa using hl''⟩
        rw [List.foldlM_cons]
        simp only [hkt, hk']
        exact hk''
    obtain ⟨k3, hk3, l3⟩ := loop (ls k1.scans k1.procs.length) [] k2 ⟨by rw [e1]; exact si, Ext.refl _, by simp, fun q hq => Or.inl hq, Nat.le_refl _, Same.refl _ _⟩
    refine ⟨die (tick k3) p, by rw [hk3]; rfl, ?_⟩
    have l4 := l3.tick
    generalize tick k3 = k4 at l4 ⊢
    rw [List.nil_append] at l4
    have hpl : p < k4.procs.length := by
      have := l4.ext.len
      have := se.len
      rw [e1] at *; omega
    obtain ⟨di, de, dg, dh, dt, ds⟩ := die_ok l4.inv hpl h1 (by
      intro q c h0 hc ho
      have hq1 : q < k1.procs.length := by
        refine Nat.lt_of_not_le fun hle => ?_
        have := l4.ext.fresh q c (by rw [e1]; exact hle) hc c0 (by rw [e1, ho]; exact sc)
        rw [sa] at this; cases this
      have hg := List.getElem?_eq_getElem hq1
      generalize k1.procs[q] = x at hg
      obtain ⟨y, y1, y2, _⟩ := l4.ext.keep q x (by rw [e1]; exact hg)
      rw [hc] at y1; cases y1
      obtain ⟨z, z1, z2⟩ := l4.gone q x (hls _ _ _ hq1) h0 (by rw [e1]; exact hg) (by rw [← y2]; exact ho)
      rw [hc] at z1; cases z1
      exact z2)
    have hself : ∀ (l : List P) (q : Nat), q = p → Desc l p q := by rintro l q rfl; exact .self
    have ext2 : Ext k.procs k4.procs := (te.trans se).trans (e1 ▸ l4.ext)
    refine ⟨di, ext2.trans de, dg, ?_, by have := l4.tot; omega, ?_⟩
    · intro q hq
      rw [dh] at hq
      rcases List.mem_append.mp hq with hq | hq
      · rcases l4.hits q hq with hq | hq
        · rw [e2, sh] at hq
          rcases List.mem_append.mp hq with hq | hq
          · rw [th] at hq; exact Or.inl hq
          · exact Or.inr (hself _ _ (by simpa using hq))
        · exact Or.inr (desc_ext de hq)
      · exact Or.inr (hself _ _ (by simpa using hq))
    · refine ((((tick_same _ hi).trans (ss.mono (hself _)) te.len).trans ((e1 ▸ l4.same).mono (fun r => desc_ext de)) (te.trans se).len)).trans (ds.mono (hself _)) ext2.len

/-! ### C202 -/

theorem Healthy.inv {l : List P} (h : Healthy l) : Inv l := by
  refine ⟨fun q c hc => (h q c hc).2.2.2.1, ?_, fun q c hc => Or.inl (h q c hc).1, fun q c d _ hc _ _ => (h q c hc).1, fun q c hc => (h q c hc).2.2.1⟩
  intro q c d _ _ hd hdd
  rw [(h _ d hd).2.1] at hdd; cases hdd

theorem desc_pos {l : List P} {p q : Nat} (hp : 0 < p) (hq : Desc l p q) : 0 < q := by
  cases hq with
  | self => exact hp
  | child h0 => exact h0

/-- A dead process has no living descendant. -/
theorem desc_dead {l : List P} (h : Inv l) {p : Nat} (hp : 0 < p) (hd : ∃ c : P, l[p]? = some c ∧ c.dead = true) {q : Nat} (hq : Desc l p q) :
    ∀ c : P, l[q]? = some c → c.dead = true := by
  induction hq with
  | self =>
    obtain ⟨c, hc, hcd⟩ := hd
    intro c' hc'; rw [hc] at hc'; cases hc'; exact hcd
  | @child q r c hq0 hc ho hd' ih =>
    intro c' hc'
    rw [hc] at hc'; cases hc'
    have hlt := (List.getElem?_eq_some_iff.mp hc).1
    have hr := h.older q c hc hq0
    have hg := List.getElem?_eq_getElem (show r < l.length by omega)
    exact h.closed q c _ hq0 hc (by rw [ho]; exact hg) (ih _ hg)

/-- The call ends; in the end the process and everything it or its descendants ever created — before or during the call — is dead, only they got a
    signal, every other process is as it was, and no process is forgotten. -/
theorem C202_kill_tree (ls : Nat → Nat → List Str) (hls : Complete ls) (k : K) (p : Nat) (h : Healthy k.procs) (hh : k.hit = []) (h1 : 1 < p) (hp : p < k.procs.length)
    (hmax : k.procs.length + forks k.sched ≤ 2147483647) :
    ∃ k', killTree ls (k.procs.length + forks k.sched) k p = some k' ∧
      (∀ (q : Nat) (c : P), k'.procs[q]? = some c → Desc k'.procs p q → c.dead = true) ∧
      (∀ q ∈ k'.hit, Desc k'.procs p q) ∧
      (∀ (q : Nat) (c' : P), k'.procs[q]? = some c' → ¬ Desc k'.procs p q →
        c'.dead = false ∧ (c'.stopped = true → ∃ c : P, k.procs[q]? = some c ∧ c.stopped = true)) ∧
      k.procs.map P.orig <+: k'.procs.map P.orig := by
  obtain ⟨k', hk', post⟩ := killTree_ok ls hls (total k) k p h.inv h1 hp hmax (by omega)
  refine ⟨k', hk', fun q c hc hq => desc_dead post.inv (by omega) post.gone hq c hc, ?_, ?_, ?_⟩
  · intro q hq
    rcases post.hits q hq with hq | hq
    · rw [hh] at hq; cases hq
    · exact hq
  · intro q c' hc' hq
    rcases post.same q c' hc' hq with ⟨c, hc, e1, e2⟩ | ⟨_, e1, e2⟩
    · exact ⟨by rw [← e2]; exact (h q c hc).2.1, fun hs => ⟨c, hc, e1.trans hs⟩⟩
    · exact ⟨e2, fun hs => by rw [e1] at hs; cases hs⟩
  · have : k.procs.map P.orig = (k'.procs.map P.orig).take k.procs.length := by
      apply List.ext_getElem?
      intro i
      rw [List.getElem?_take]
      split
      · next hi =>
        have hg := List.getElem?_eq_getElem hi
        obtain ⟨c', hc', e, _⟩ := post.ext.keep i _ hg
        rw [List.getElem?_map, List.getElem?_map, hg, hc']
        simp [e]
      · next hi => simp; omega
    rw [this]
    exact List.take_prefix _ _

/-- A shell (2) with a child (3); the shell forks (6) just before it is stopped, the child forks (7) when /proc is read; 4 and 5 are somebody else's. -/
def exK : K :=
  { procs := [⟨[], 0, 0, false, false⟩, ⟨c!"init", 0, 0, false, false⟩, ⟨c!"sh", 1, 1, false, false⟩, ⟨c!"a) S 5 (", 2, 2, false, false⟩, ⟨c!"x", 1, 1, false, false⟩,
      ⟨c!"y) S 2 (z", 4, 4, false, false⟩]
    sched := [[.fork 2], [], [.fork 3, .rename 3 (c!"b b")]], scans := 0, hit := [] }

/-- the listing: other names, then the processes from the last to the first -/
def exLs (_ n : Nat) : List Str := c!"." :: c!".." :: c!"self" :: ((List.range n).reverse.map natStr)

example : (killTree exLs 20 exK 2).map (fun k => (k.procs.map (fun c => (c.orig, c.dead)), k.hit)) =
    some ([(0, false), (0, false), (1, true), (2, true), (1, false), (4, false), (2, true), (3, true)], [2, 6, 6, 3, 7, 7, 3, 2]) := by decide +kernel

example : Complete exLs := by
  intro i n q hq
  simp only [exLs, List.mem_cons, List.mem_map, List.mem_reverse, List.mem_range]
  exact Or.inr (Or.inr (Or.inr ⟨q, hq, rfl⟩))

example : Healthy exK.procs ∧ exK.hit = [] ∧ exK.procs.length + forks exK.sched ≤ 2147483647 := by
  refine ⟨?_, rfl, by decide⟩
  have : ∀ q < exK.procs.length, ∀ c, exK.procs[q]? = some c → c.ppid = c.orig ∧ c.dead = false ∧ c.comm.length ≤ 64 ∧ (0 < q → c.orig < q) ∧ (q = 0 → c.orig = 0) := by
    have e : exK.procs.length = 6 := rfl
    rw [e]
    intro q hq c hc
    match q, hq with
    | 0, _ | 1, _ | 2, _ | 3, _ | 4, _ | 5, _ => simp [exK] at hc; subst hc; decide
  intro q c hc
  exact this q (List.getElem?_eq_some_iff.mp hc).1 c hc

end Vital.Proc.KillTree
