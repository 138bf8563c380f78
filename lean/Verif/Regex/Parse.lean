/-
  The syntax of expressions as a parser that builds trees, and: `compile` accepts what it accepts and writes the code of its tree.
-/
import Verif.Regex.Asm

namespace Vital.Regex
open Re

/-- Result of a parser: the tree, the text left and the number of the next group. -/
abbrev PRes := Option (Re × List Nat × Nat)

/-- An atom; `preg` parses the rest of a group. -/
def pAtom (preg : List Nat → Nat → PRes) (t : List Nat) (np : Nat) : PRes :=
  match t with
  | [] => none
  | c :: t =>
    if c = 94 then some (.bol, t, np)
    else if c = 36 then some (.eol, t, np)
    else if c = 46 then some (.any, t, np)
    else if c = 91 then
      match classBody t with
      | none => none
      | some (neg, cs, t') => some (.set neg cs, t', np)
    else if c = 40 then preg t np
    else if c = 124 ∨ c = 41 then none
    else if isMult c then none
    else if c = 92 then
      match t with
      | [] => none
      | d :: t' => some (.lit [d], t', np)
    else
      let len := runLength (c :: t)
      if len = 0 then none else some (.lit ((c :: t).take len), (c :: t).drop len, np)

/-- The tree of an operator on an atom. -/
def quant (op : Nat) (r : Re) : Re := if op = 42 then .star r else if op = 43 then .plus r else .opt r

/-- A piece: an atom and possibly an operator. -/
def pPiece (preg : List Nat → Nat → PRes) (t : List Nat) (np : Nat) : PRes :=
  match pAtom preg t np with
  | none => none
  | some (r, t, np) =>
    match t with
    | [] => some (r, t, np)
    | op :: t' =>
      if isMult op = false then some (r, t, np)
      else if r.width = false ∧ op ≠ 63 then none
      else
        match t' with
        | c :: _ => if isMult c then none else some (quant op r, t', np)
        | [] => some (quant op r, t', np)

/-- Join a piece to a branch. -/
def joinP (acc : Option Re) (q : Re) : Re :=
  match acc with
  | none => q
  | some a => .cat a q

/-- The pieces of a branch. -/
def pPieces (preg : List Nat → Nat → PRes) : Nat → Option Re → List Nat → Nat → Option (Option Re × List Nat × Nat)
  | 0, _, _, _ => none
  | n + 1, acc, t, np =>
    match t with
    | [] => some (acc, t, np)
    | c :: _ =>
      if c = 124 ∨ c = 41 then some (acc, t, np)
      else
        match pPiece preg t np with
        | none => none
        | some (q, t', np') => pPieces preg n (some (joinP acc q)) t' np'

/-- A branch. -/
def pBranch (preg : List Nat → Nat → PRes) (t : List Nat) (np : Nat) : PRes :=
  match pPieces preg (t.length + 1) none t np with
  | none => none
  | some (acc, t', np') => some (acc.getD .nothing, t', np')

/-- Append an alternative. -/
def snocAlt : Re → Re → Re
  | .last a, b => .alt a (.last b)
  | .alt a r, b => .alt a (snocAlt r b)
  | r, _ => r

/-- Further alternatives. -/
def pAlts (preg : List Nat → Nat → PRes) : Nat → Re → List Nat → Nat → PRes
  | 0, _, _, _ => none
  | n + 1, acc, t, np =>
    match t with
    | 124 :: t' =>
      match pBranch preg t' np with
      | none => none
      | some (b, t'', np') => pAlts preg n (snocAlt acc b) t'' np'
    | _ => some (acc, t, np)

/-- Alternatives. -/
def pAll (preg : List Nat → Nat → PRes) (t : List Nat) (np : Nat) : PRes :=
  match pBranch preg t np with
  | none => none
  | some (b, t', np') => pAlts preg (t'.length + 1) (.last b) t' np'

/-- A group, after its opening parenthesis. -/
def pGroup : Nat → List Nat → Nat → PRes
  | 0, _, _ => none
  | n + 1, t, np =>
    if 10 ≤ np then none
    else
      match pAll (pGroup n) t (np + 1) with
      | some (r, 41 :: t', np') => some (.group np r, t', np')
      | _ => none

/-- An expression. -/
def parse (exp : List Nat) : Option Re :=
  match pAll (pGroup 10) exp 1 with
  | some (r, [], _) => some r
  | _ => none

/-! ### What the parser builds -/

theorem notin_drop {x : Nat} {l : List Nat} (n : Nat) (h : x ∉ l) : x ∉ l.drop n := fun hm => h (List.mem_of_mem_drop hm)
theorem notin_take {x : Nat} {l : List Nat} (n : Nat) (h : x ∉ l) : x ∉ l.take n := fun hm => h (List.mem_of_mem_take hm)

theorem zero_notin_byteRange {lo hi : Nat} (h : 0 < lo) : 0 ∉ byteRange lo hi := by
  simp [byteRange]; omega

theorem classScan_ok : ∀ (n : Nat) (t : List Nat) (prev : Nat) (cs t' : List Nat), t.length ≤ n → 0 ∉ t → classScan prev t = some (cs, t') →
    0 ∉ cs ∧ 0 ∉ t' ∧ t'.length < t.length := by
  intro n
  induction n with
  | zero =>
    intro t prev cs t' hl h0 h
    cases t with
    | nil => simp [classScan] at h
    | cons c t => simp at hl
  | succ n ih =>
    intro t prev cs t' hl h0 h
    cases t with
    | nil => simp [classScan] at h
    | cons c t =>
      simp only [List.mem_cons, not_or] at h0
      simp only [List.length_cons] at hl
      unfold classScan at h
      split at h
      · simp at h; obtain ⟨rfl, rfl⟩ := h; exact ⟨by simp, h0.2, by simp⟩
      · split at h
        · cases t with
          | nil => simp at h
          | cons x t =>
            simp only [List.mem_cons, not_or] at h0
            simp only [List.length_cons] at hl
            simp only at h
            split at h
            · simp at h; obtain ⟨rfl, rfl⟩ := h; exact ⟨by simp, h0.2.2, by simp; omega⟩
            · split at h
              · simp at h
              · simp only [Option.map_eq_some_iff] at h
                obtain ⟨⟨a, b⟩, hs, he⟩ := h
                simp at he; obtain ⟨rfl, rfl⟩ := he
                obtain ⟨h1, h2, h3⟩ := ih t _ _ _ (by omega) h0.2.2 hs
                refine ⟨?_, h2, by simp; omega⟩
                simp only [List.mem_append, not_or]
                exact ⟨zero_notin_byteRange (by omega), h1⟩
        · simp only [Option.map_eq_some_iff] at h
          obtain ⟨⟨a, b⟩, hs, he⟩ := h
          simp at he; obtain ⟨rfl, rfl⟩ := he
          obtain ⟨h1, h2, h3⟩ := ih t _ _ _ (by omega) h0.2 hs
          exact ⟨by simp [h1, h0.1], h2, by simp; omega⟩

theorem classBody_ok {t : List Nat} {neg : Bool} {cs t' : List Nat} (h0 : 0 ∉ t) (h : classBody t = some (neg, cs, t')) :
    0 ∉ cs ∧ 0 ∉ t' ∧ t'.length < t.length := by
  have hle : ∀ b : Bool, (if b then t.tail else t).length ≤ t.length := by intro b; cases b <;> simp
  have hz : ∀ b : Bool, 0 ∉ (if b then t.tail else t) := by
    intro b; cases b
    · simpa using h0
    · exact fun hm => h0 (List.mem_of_mem_tail hm)
  unfold classBody at h
  simp only at h
  have hle' := hle (t.head? == some 94)
  have hz' := hz (t.head? == some 94)
  generalize (if (t.head? == some 94) = true then t.tail else t) = u at h hle' hz'
  cases u with
  | nil => simp at h
  | cons c u =>
    simp only [List.mem_cons, not_or] at hz'
    simp only [List.length_cons] at hle'
    simp only at h
    split at h <;>
    · simp only [Option.map_eq_some_iff] at h
      obtain ⟨⟨a, b⟩, hs, he⟩ := h
      simp at he; obtain ⟨rfl, rfl, rfl⟩ := he
      first
      | obtain ⟨h1, h2, h3⟩ := classScan_ok _ u _ _ _ (Nat.le_refl _) hz'.2 hs
        exact ⟨by simp [h1, hz'.1], h2, by omega⟩
      | obtain ⟨h1, h2, h3⟩ := classScan_ok _ (c :: u) _ _ _ (Nat.le_refl _) (by simp [hz'.1, hz'.2]) hs
        exact ⟨h1, h2, by simp at h3; omega⟩

/-- What is true of the result of a parser on the text `t`. -/
def POk (t : List Nat) (np : Nat) (res : Re × List Nat × Nat) : Prop :=
  res.1.wf ∧ res.1.isAlt = false ∧ 0 ∉ res.2.1 ∧ res.2.1.length < t.length ∧ np ≤ res.2.2

def POkFun (preg : List Nat → Nat → PRes) : Prop :=
  ∀ t np res, 0 ∉ t → 1 ≤ np → preg t np = some res → POk t np res

theorem pAtom_ok {preg} (hp : POkFun preg) : POkFun (pAtom preg) := by
  intro t np res h0 hnp h
  cases t with
  | nil => simp [pAtom] at h
  | cons c t =>
    simp only [List.mem_cons, not_or] at h0
    unfold pAtom at h
    simp only at h
    split at h
    · simp at h; subst h; exact ⟨trivial, rfl, h0.2, by simp, Nat.le_refl _⟩
    split at h
    · simp at h; subst h; exact ⟨trivial, rfl, h0.2, by simp, Nat.le_refl _⟩
    split at h
    · simp at h; subst h; exact ⟨trivial, rfl, h0.2, by simp, Nat.le_refl _⟩
    split at h
    · split at h
      · simp at h
      · rename_i neg cs t' hb
        simp at h; subst h
        obtain ⟨h1, h2, h3⟩ := classBody_ok h0.2 hb
        exact ⟨h1, rfl, h2, by simp; omega, Nat.le_refl _⟩
    split at h
    · obtain ⟨h1, h2, h3, h4, h5⟩ := hp t np res h0.2 hnp h
      exact ⟨h1, h2, h3, by simp; omega, h5⟩
    split at h
    · simp at h
    split at h
    · simp at h
    split at h
    · cases t with
      | nil => simp at h
      | cons d t =>
        simp only [List.mem_cons, not_or] at h0
        simp at h; subst h
        exact ⟨⟨by simp, by simp [h0.2.1]⟩, rfl, h0.2.2, by simp; omega, Nat.le_refl _⟩
    · split at h
      · simp at h
      · rename_i hl
        simp at h; subst h
        have hz : 0 ∉ c :: t := by simp [h0.1, h0.2]
        refine ⟨⟨?_, notin_take _ hz⟩, rfl, notin_drop _ hz, ?_, Nat.le_refl _⟩
        · intro he; simp at he; exact hl he
        · simp; omega

theorem pPiece_ok {preg} (hp : POkFun preg) : POkFun (pPiece preg) := by
  intro t np res h0 hnp h
  unfold pPiece at h
  split at h
  · simp at h
  · rename_i r t1 np1 ha
    obtain ⟨h1, h2, h3, h4, h5⟩ := pAtom_ok hp t np _ h0 hnp ha
    simp only at h1 h2 h3 h4 h5
    cases t1 with
    | nil => simp at h; subst h; exact ⟨h1, h2, h3, h4, h5⟩
    | cons op t1 =>
      simp only at h
      split at h
      · simp at h; subst h; exact ⟨h1, h2, h3, h4, h5⟩
      · split at h
        · simp at h
        · rename_i hm hw
          simp only [List.mem_cons, not_or] at h3
          have hq : (quant op r).wf ∧ (quant op r).isAlt = false := by
            simp only [quant]
            have hw' : op ≠ 63 → r.width = true := by
              intro h63
              cases hwd : r.width with
              | true => rfl
              | false => exact absurd ⟨hwd, h63⟩ hw
            split
            · rename_i h42; exact ⟨⟨h2, hw' (by omega), h1⟩, rfl⟩
            · split
              · rename_i h43; exact ⟨⟨h2, hw' (by omega), h1⟩, rfl⟩
              · exact ⟨⟨h2, h1⟩, rfl⟩
          have hres : res = (quant op r, t1, np1) := by
            cases t1 with
            | nil => simp at h; exact h.symm
            | cons c t1 =>
              simp only at h
              split at h
              · simp at h
              · simp at h; exact h.symm
          subst hres
          exact ⟨hq.1, hq.2, h3.2, by simp at h4; simp only; omega, h5⟩

theorem pPieces_ok {preg} (hp : POkFun preg) : ∀ n acc t np acc' t' np', 0 ∉ t → 1 ≤ np →
    (∀ a, acc = some a → a.wf ∧ a.isAlt = false) → pPieces preg n acc t np = some (acc', t', np') →
    (∀ a, acc' = some a → a.wf ∧ a.isAlt = false) ∧ 0 ∉ t' ∧ t'.length ≤ t.length ∧ np ≤ np' ∧
    (acc.map len).getD 0 ≤ (acc'.map len).getD 0 ∧ (acc.isSome → acc'.isSome) := by
  intro n
  induction n with
  | zero => intro acc t np acc' t' np' _ _ _ h; simp [pPieces] at h
  | succ n ih =>
    intro acc t np acc' t' np' h0 hnp hacc h
    unfold pPieces at h
    cases t with
    | nil => simp at h; obtain ⟨rfl, rfl, rfl⟩ := h; exact ⟨hacc, h0, Nat.le_refl _, Nat.le_refl _, Nat.le_refl _, id⟩
    | cons c t =>
      simp only at h
      split at h
      · simp at h; obtain ⟨rfl, rfl, rfl⟩ := h; exact ⟨hacc, h0, Nat.le_refl _, Nat.le_refl _, Nat.le_refl _, id⟩
      · split at h
        · simp at h
        · rename_i q t1 np1 hq
          obtain ⟨h1, h2, h3, h4, h5⟩ := pPiece_ok hp _ np _ h0 hnp hq
          simp only at h1 h2 h3 h4 h5
          have hj : (joinP acc q).wf ∧ (joinP acc q).isAlt = false := by
            cases acc with
            | none => exact ⟨h1, h2⟩
            | some a => obtain ⟨ha, hb⟩ := hacc a rfl; exact ⟨⟨hb, h2, ha, h1⟩, rfl⟩
          obtain ⟨g1, g2, g3, g4, g5, g6⟩ := ih _ _ _ _ _ _ h3 (by omega) (by intro a ha; cases ha; exact hj) h
          refine ⟨g1, g2, by omega, by omega, ?_, fun _ => g6 rfl⟩
          refine Nat.le_trans ?_ g5
          cases acc <;> simp [joinP, len]

theorem pBranch_ok {preg} (hp : POkFun preg) {t np r t' np'} (h0 : 0 ∉ t) (hnp : 1 ≤ np) (h : pBranch preg t np = some (r, t', np')) :
    r.wf ∧ r.isAlt = false ∧ 0 ∉ t' ∧ t'.length ≤ t.length ∧ np ≤ np' := by
  unfold pBranch at h
  split at h
  · simp at h
  · rename_i acc t1 np1 hq
    simp at h; obtain ⟨rfl, rfl, rfl⟩ := h
    obtain ⟨h1, h2, h3, h4, _⟩ := pPieces_ok hp _ _ _ _ _ _ _ h0 hnp (by simp) hq
    cases acc with
    | none => exact ⟨trivial, rfl, h2, h3, h4⟩
    | some a => exact ⟨(h1 a rfl).1, (h1 a rfl).2, h2, h3, h4⟩

theorem snocAlt_ok {r b : Re} (h : r.wf) (ha : r.isAlt = true) (hb : b.wf) (hba : b.isAlt = false) :
    (snocAlt r b).wf ∧ (snocAlt r b).isAlt = true ∧ len (snocAlt r b) = len r + (len b + 3) := by
  induction r with
  | last a => exact ⟨⟨h.1, rfl, h.2, hba, hb⟩, rfl, by simp [snocAlt, len]⟩
  | alt a r _ ih =>
    obtain ⟨h1, h2, h3⟩ := ih h.2.2.2 h.2.1
    exact ⟨⟨h.1, h2, h.2.2.1, h1⟩, rfl, by simp [snocAlt, len, h3]; omega⟩
  | _ => simp [isAlt] at ha

theorem pAlts_ok {preg} (hp : POkFun preg) : ∀ n acc t np r t' np', 0 ∉ t → 1 ≤ np → acc.wf → acc.isAlt = true →
    pAlts preg n acc t np = some (r, t', np') →
    r.wf ∧ r.isAlt = true ∧ 0 ∉ t' ∧ t'.length ≤ t.length ∧ np ≤ np' ∧ len acc ≤ len r := by
  intro n
  induction n with
  | zero => intro acc t np r t' np' _ _ _ _ h; simp [pAlts] at h
  | succ n ih =>
    intro acc t np r t' np' h0 hnp hw ha h
    unfold pAlts at h
    split at h
    · rename_i t1
      simp only [List.mem_cons, not_or] at h0
      split at h
      · simp at h
      · rename_i b t2 np2 hb
        obtain ⟨h1, h2, h3, h4, h5⟩ := pBranch_ok hp h0.2 hnp hb
        obtain ⟨k1, k2, k3⟩ := snocAlt_ok hw ha h1 h2
        obtain ⟨g1, g2, g3, g4, g5, g6⟩ := ih _ _ _ _ _ _ h3 (by omega) k1 k2 h
        exact ⟨g1, g2, g3, by simp; omega, by omega, by omega⟩
    · simp at h; obtain ⟨rfl, rfl, rfl⟩ := h
      exact ⟨hw, ha, h0, Nat.le_refl _, Nat.le_refl _, Nat.le_refl _⟩

theorem pAll_ok {preg} (hp : POkFun preg) {t np r t' np'} (h0 : 0 ∉ t) (hnp : 1 ≤ np) (h : pAll preg t np = some (r, t', np')) :
    r.wf ∧ r.isAlt = true ∧ 0 ∉ t' ∧ t'.length ≤ t.length ∧ np ≤ np' := by
  unfold pAll at h
  split at h
  · simp at h
  · rename_i b t1 np1 hb
    obtain ⟨h1, h2, h3, h4, h5⟩ := pBranch_ok hp h0 hnp hb
    obtain ⟨g1, g2, g3, g4, g5, _⟩ := pAlts_ok hp _ _ _ _ _ _ _ h3 (by omega) (show (Re.last b).wf from ⟨h2, h1⟩) rfl h
    exact ⟨g1, g2, g3, by omega, by omega⟩

theorem pGroup_ok : ∀ n, POkFun (pGroup n) := by
  intro n
  induction n with
  | zero => intro t np res _ _ h; simp [pGroup] at h
  | succ n ih =>
    intro t np res h0 hnp h
    unfold pGroup at h
    split at h
    · simp at h
    · split at h
      · rename_i r t1 np1 hq
        simp at h; subst h
        obtain ⟨g1, g2, g3, g4, g5⟩ := pAll_ok ih h0 (by omega) hq
        simp only [List.mem_cons, not_or] at g3
        simp at g4
        exact ⟨⟨hnp, by omega, g2, g1⟩, rfl, g3.2, by simp only; omega, by simp only; omega⟩
      · simp at h

theorem parse_ok {exp : List Nat} {r : Re} (h0 : 0 ∉ exp) (h : parse exp = some r) : r.wf ∧ r.isAlt = true := by
  unfold parse at h
  split at h
  · rename_i r1 np1 hq
    simp at h; subst h
    obtain ⟨g1, g2, _⟩ := pAll_ok (pGroup_ok 10) h0 (by omega) hq
    exact ⟨g1, g2⟩
  · simp at h

end Vital.Regex
