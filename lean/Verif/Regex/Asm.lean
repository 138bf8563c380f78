/-
  The layout of the program that `compile` writes, as a function of the syntax tree, and the links between its nodes.
-/
import Verif.Regex.Model

namespace Vital.Regex

/-- Syntax trees.  A whole expression (or the inside of a group) is `last` or `alt`; a branch is `nothing`, a piece or a `cat`. -/
inductive Re where
  | bol
  | eol
  | any
  | set (neg : Bool) (cs : List Nat)
  | lit (s : List Nat)
  | nothing
  | group (no : Nat) (r : Re)
  | star (r : Re)
  | plus (r : Re)
  | opt (r : Re)
  | cat (a b : Re)
  | last (a : Re)
  | alt (a b : Re)
deriving DecidableEq, Repr

namespace Re

/-- Is the tree a list of alternatives? -/
def isAlt : Re → Bool
  | last _ => true
  | alt _ _ => true
  | _ => false

/-- A single character, whatever it is: the operand of the fast loops. -/
def simple : Re → Bool
  | any => true
  | set _ _ => true
  | lit s => s.length == 1
  | _ => false

/-- Known never to match the empty string. -/
def width : Re → Bool
  | any => true
  | set _ _ => true
  | lit _ => true
  | group _ r => width r
  | plus _ => true
  | cat a b => width a || width b
  | last a => width a
  | alt a b => width a && width b
  | _ => false

/-- Starts with `*` or `?`. -/
def spstart : Re → Bool
  | group _ r => spstart r
  | star _ => true
  | opt _ => true
  | cat a _ => spstart a
  | last a => spstart a
  | alt a b => spstart a || spstart b
  | _ => false

/-- Size of the code. -/
def len : Re → Nat
  | bol => 3
  | eol => 3
  | any => 3
  | set _ cs => cs.length + 4
  | lit s => s.length + 4
  | nothing => 3
  | group _ r => len r + 6
  | star r => if simple r then len r + 3 else len r + 12
  | plus r => if simple r then len r + 3 else len r + 12
  | opt r => len r + 9
  | cat a b => len a + len b
  | last a => len a + 3
  | alt a b => len a + 3 + len b

/-- Offset to a place `k` bytes behind the end of a code of which `d` bytes are left; 0 when there is no such place. -/
def off (k : Option Nat) (d : Nat) : Nat :=
  match k with
  | none => 0
  | some k => d + k

mutual
/-- The code, when the links that leave it go to the place `k` bytes behind its end. -/
def asm : Re → Option Nat → List Nat
  | bol, k => node 1 (off k 3)
  | eol, k => node 2 (off k 3)
  | any, k => node 3 (off k 3)
  | set neg cs, k => node (if neg then 5 else 4) (off k (cs.length + 4)) ++ cs ++ [0]
  | lit s, k => node 8 (off k (s.length + 4)) ++ s ++ [0]
  | nothing, k => node 9 (off k 3)
  | group no r, k => node (20 + no) 3 ++ asmAlt r (some 0) (some 0) ++ node (30 + no) (off k 3)
  | star r, k =>
    if simple r then node 10 (off k (len r + 3)) ++ asm r none
    else node 6 (len r + 6) ++ asm r (some 0) ++ node 7 (len r + 3) ++ node 6 3 ++ node 9 (off k 3)
  | plus r, k =>
    if simple r then node 11 (off k (len r + 3)) ++ asm r none
    else asm r (some 0) ++ node 6 6 ++ node 7 (len r + 3) ++ node 6 3 ++ node 9 (off k 3)
  | opt r, k => node 6 (len r + 3) ++ asm r (some 3) ++ node 6 3 ++ node 9 (off k 3)
  | cat a b, k => asm a (some 0) ++ asm b k
  | last _, _ => []
  | alt _ _, _ => []

/-- The code of a list of alternatives: `kc` is the place after the last alternative in the list, `ko` where the alternatives go on. -/
def asmAlt : Re → Option Nat → Option Nat → List Nat
  | last a, kc, ko => node 6 (off kc (len a + 3)) ++ asm a ko
  | alt a b, kc, ko => node 6 (len a + 3) ++ asm a (ko.map (len b + ·)) ++ asmAlt b kc ko
  | _, _, _ => []
end

/-- Trees that the compiler builds. -/
def wf : Re → Prop
  | set _ cs => 0 ∉ cs
  | lit s => s ≠ [] ∧ 0 ∉ s
  | group no r => 1 ≤ no ∧ no ≤ 9 ∧ r.isAlt = true ∧ wf r
  | star r => r.isAlt = false ∧ r.width = true ∧ wf r
  | plus r => r.isAlt = false ∧ r.width = true ∧ wf r
  | opt r => r.isAlt = false ∧ wf r
  | cat a b => a.isAlt = false ∧ b.isAlt = false ∧ wf a ∧ wf b
  | last a => a.isAlt = false ∧ wf a
  | alt a b => a.isAlt = false ∧ b.isAlt = true ∧ wf a ∧ wf b
  | _ => True

theorem node_length (op d : Nat) : (node op d).length = 3 := rfl

theorem asm_length_both (r : Re) :
    (r.wf → r.isAlt = false → ∀ k, (asm r k).length = len r) ∧
    (r.wf → r.isAlt = true → ∀ kc ko, (asmAlt r kc ko).length = len r) := by
  induction r with
  | bol => exact ⟨fun _ _ k => by simp [asm, node, len], fun _ h => by simp [isAlt] at h⟩
  | eol => exact ⟨fun _ _ k => by simp [asm, node, len], fun _ h => by simp [isAlt] at h⟩
  | any => exact ⟨fun _ _ k => by simp [asm, node, len], fun _ h => by simp [isAlt] at h⟩
  | nothing => exact ⟨fun _ _ k => by simp [asm, node, len], fun _ h => by simp [isAlt] at h⟩
  | set neg cs => exact ⟨fun _ _ k => by simp [asm, node, len], fun _ h => by simp [isAlt] at h⟩
  | lit s => exact ⟨fun _ _ k => by simp [asm, node, len], fun _ h => by simp [isAlt] at h⟩
  | group no r ih =>
    refine ⟨fun h _ k => ?_, fun _ h => by simp [isAlt] at h⟩
    have := ih.2 h.2.2.2 h.2.2.1 (some 0) (some 0)
    simp [asm, node, len, this]
  | star r ih =>
    refine ⟨fun h _ k => ?_, fun _ h => by simp [isAlt] at h⟩
    have := ih.1 h.2.2 h.1
    by_cases hs : simple r = true
    · simp [asm, node, len, hs, this]
    · simp [asm, node, len, hs, this]
  | plus r ih =>
    refine ⟨fun h _ k => ?_, fun _ h => by simp [isAlt] at h⟩
    have := ih.1 h.2.2 h.1
    by_cases hs : simple r = true
    · simp [asm, node, len, hs, this]
    · simp [asm, node, len, hs, this]
  | opt r ih =>
    refine ⟨fun h _ k => ?_, fun _ h => by simp [isAlt] at h⟩
    have := ih.1 h.2 h.1
    simp [asm, node, len, this]
  | cat a b iha ihb =>
    refine ⟨fun h _ k => ?_, fun _ h => by simp [isAlt] at h⟩
    simp [asm, len, iha.1 h.2.2.1 h.1, ihb.1 h.2.2.2 h.2.1]
  | last a ih =>
    refine ⟨fun _ h => by simp [isAlt] at h, fun h _ kc ko => ?_⟩
    simp [asmAlt, node, len, ih.1 h.2 h.1]
  | alt a b iha ihb =>
    refine ⟨fun _ h => by simp [isAlt] at h, fun h _ kc ko => ?_⟩
    simp [asmAlt, node, len, iha.1 h.2.2.1 h.1, ihb.2 h.2.2.2 h.2.1]; omega

theorem asm_length {r : Re} (h : r.wf) (ha : r.isAlt = false) (k) : (asm r k).length = len r := (asm_length_both r).1 h ha k
theorem asmAlt_length {r : Re} (h : r.wf) (ha : r.isAlt = true) (kc ko) : (asmAlt r kc ko).length = len r :=
  (asm_length_both r).2 h ha kc ko

end Re

/-! ### Code at an address -/

/-- The bytes `bs` are in the program at the address `a`. -/
def At (code : List Nat) (a : Nat) (bs : List Nat) : Prop := ∃ pre suf, code = pre ++ bs ++ suf ∧ pre.length = a

theorem At.left {code a x y} (h : At code a (x ++ y)) : At code a x := by
  obtain ⟨p, s, rfl, hp⟩ := h
  exact ⟨p, y ++ s, by simp, hp⟩

theorem At.right {code a x y} (h : At code a (x ++ y)) : At code (a + x.length) y := by
  obtain ⟨p, s, rfl, hp⟩ := h
  exact ⟨p ++ x, s, by simp, by simp [hp]⟩

theorem At.get {code a bs} (h : At code a bs) (i : Nat) (hi : i < bs.length) : code[a + i]? = bs[i]? := by
  obtain ⟨p, s, rfl, hp⟩ := h
  subst hp
  rw [List.append_assoc, List.getElem?_append_right (by omega), List.getElem?_append_left (by omega)]
  congr 1; omega

theorem At.bound {code a bs} (h : At code a bs) : a + bs.length ≤ code.length := by
  obtain ⟨p, s, rfl, hp⟩ := h
  simp; omega

theorem At.op {code a op d} (h : At code a (node op d)) : code[a]? = some op := by
  have := h.get 0 (by simp [node])
  simpa [node] using this

theorem At.next {code a op d} (h : At code a (node op d)) (hd : d < 65536) :
    regnext code a = if d = 0 then none else if op = 7 then some (a - d) else some (a + d) := by
  have h0 := h.get 0 (by simp [node])
  have h1 := h.get 1 (by simp [node])
  have h2 := h.get 2 (by simp [node])
  simp only [node, Nat.add_zero, List.getElem?_cons_zero, List.getElem?_cons_succ] at h0 h1 h2
  have : d / 256 % 256 * 256 + d % 256 = d := by omega
  simp [regnext, h0, h1, h2, this]

/-- The code at an address from the code in front of it. -/
theorem At.mk' {code pre bs suf : List Nat} (h : code = pre ++ bs ++ suf) : At code pre.length bs := ⟨pre, suf, h, rfl⟩

/-- There is a chain of "next" links upwards. -/
inductive Reach (code : List Nat) : Nat → Nat → Prop where
  | refl (p) : Reach code p p
  | step {p t q} (h : regnext code p = some t) (hlt : p < t) (r : Reach code t q) : Reach code p q

theorem Reach.trans {code p q s} (h : Reach code p q) (g : Reach code q s) : Reach code p s := by
  induction h with
  | refl => exact g
  | step h hlt _ ih => exact .step h hlt (ih g)

theorem Reach.cast {code p q p' q'} (h : Reach code p q) (hp : p = p') (hq : q = q') : Reach code p' q' := by
  subst hp hq; exact h

theorem Reach.le {code p q} (h : Reach code p q) : p ≤ q := by
  induction h with
  | refl => omega
  | step h hlt _ ih => omega

theorem lastNode_of_reach {code p q} (h : Reach code p q) (hq : regnext code q = none) :
    ∀ n, q - p ≤ n → lastNode code n p = q := by
  induction h with
  | refl p =>
    intro n _
    cases n with
    | zero => rfl
    | succ n => simp [lastNode, hq]
  | step h hlt hr ih =>
    intro n hn
    have := hr.le
    cases n with
    | zero => omega
    | succ n => simp only [lastNode, h]; exact ih hq n (by omega)

/-- `regtail` sets the offset of the last node of the chain. -/
theorem tailCode_of {code A B : List Nat} {op p val : Nat} (hc : code = A ++ node op 0 ++ B) (hr : Reach code p A.length) :
    tailCode code p val = some (A ++ node op (if op = 7 then A.length - val else val - A.length) ++ B) := by
  have hat : At code A.length (node op 0) := At.mk' hc
  have hn : regnext code A.length = none := by rw [hat.next (by omega)]; simp
  have hb := hat.bound
  have hl : lastNode code code.length p = A.length := lastNode_of_reach hr hn _ (by simp [node] at hb; omega)
  have hset : ∀ d, setNext code A.length d = some (A ++ node op d ++ B) := by
    intro d
    subst hc
    have h3 : (A ++ node op 0 ++ B).take (A.length + 1) = A ++ [op] := by
      rw [List.append_assoc, List.take_append]; simp [node, List.take_of_length_le]
    have h4 : (A ++ node op 0 ++ B).drop (A.length + 3) = B := by
      simp [node]
    simp only [setNext]
    rw [if_pos (by simp [node]), h3, h4]
    simp [node]
  simp only [tailCode, hl, hat.op]
  by_cases h7 : op = 7
  · subst h7; simp [hset]
  · simp [h7, hset]

/-! ### The last node of a piece of code -/

namespace Re

/-- The code has one node whose link leaves it, and the chain from its start ends there. -/
def HasSplit (r : Re) : Prop :=
  ∃ A op B, op ≠ 7 ∧ A.length + 3 ≤ len r ∧ (∀ k, asm r k = A ++ node op (off k (len r - A.length)) ++ B) ∧
    ∀ code a k, code.length < 65536 → At code a (asm r k) → Reach code a (a + A.length)

/-- The same for a list of alternatives. -/
def HasSplitAlt (r : Re) : Prop :=
  ∀ ko, ∃ A B, A.length + 3 ≤ len r ∧ (∀ kc, asmAlt r kc ko = A ++ node 6 (off kc (len r - A.length)) ++ B) ∧
    ∀ code a kc, code.length < 65536 → At code a (asmAlt r kc ko) → Reach code a (a + A.length)

theorem At_step {code : List Nat} {a op d : Nat} (h : At code a (node op d)) (h7 : op ≠ 7) (hd : 0 < d) (hb : d < 65536) :
    Reach code a (a + d) := by
  refine .step (t := a + d) ?_ (by omega) (.refl _)
  rw [h.next hb]; simp [h7]; omega

theorem HasSplit.reach_end {r : Re} (h : HasSplit r) {code : List Nat} {a k : Nat} (hc : code.length < 65536)
    (hat : At code a (asm r (some k))) (hk : a + len r + k ≤ code.length) : Reach code a (a + len r + k) := by
  obtain ⟨A, op, B, h7, hl, heq, hr⟩ := h
  refine (hr code a _ hc hat).trans ?_
  rw [heq] at hat
  have := hat.left.right
  have h2 := At_step this h7 (by simp [off]; omega) (by simp [off]; omega)
  have e : a + A.length + off (some k) (len r - A.length) = a + len r + k := by simp [off]; omega
  rwa [e] at h2

theorem HasSplitAlt.reach_end {r : Re} (h : HasSplitAlt r) {code : List Nat} {a k : Nat} {ko : Option Nat} (hc : code.length < 65536)
    (hat : At code a (asmAlt r (some k) ko)) (hk : a + len r + k ≤ code.length) : Reach code a (a + len r + k) := by
  obtain ⟨A, B, hl, heq, hr⟩ := h ko
  refine (hr code a _ hc hat).trans ?_
  rw [heq] at hat
  have := hat.left.right
  have h2 := At_step this (by omega) (by simp [off]; omega) (by simp [off]; omega)
  have e : a + A.length + off (some k) (len r - A.length) = a + len r + k := by simp [off]; omega
  rwa [e] at h2

theorem split_head {r : Re} {op : Nat} {B : List Nat} (h7 : op ≠ 7) (hl : 3 ≤ len r)
    (h : ∀ k, asm r k = node op (off k (len r)) ++ B) : HasSplit r :=
  ⟨[], op, B, h7, by simpa using hl, fun k => by simp [h k], fun code a k _ _ => .refl _⟩

theorem splits (r : Re) : (r.wf → r.isAlt = false → HasSplit r) ∧ (r.wf → r.isAlt = true → HasSplitAlt r) := by
  induction r with
  | bol => exact ⟨fun _ _ => split_head (op := 1) (B := []) (by omega) (by simp [len]) (fun k => by simp [asm, len]), fun _ h => by simp [isAlt] at h⟩
  | eol => exact ⟨fun _ _ => split_head (op := 2) (B := []) (by omega) (by simp [len]) (fun k => by simp [asm, len]), fun _ h => by simp [isAlt] at h⟩
  | any => exact ⟨fun _ _ => split_head (op := 3) (B := []) (by omega) (by simp [len]) (fun k => by simp [asm, len]), fun _ h => by simp [isAlt] at h⟩
  | nothing => exact ⟨fun _ _ => split_head (op := 9) (B := []) (by omega) (by simp [len]) (fun k => by simp [asm, len]), fun _ h => by simp [isAlt] at h⟩
  | set neg cs =>
    exact ⟨fun _ _ => split_head (op := if neg then 5 else 4) (B := cs ++ [0]) (by cases neg <;> simp) (by simp [len]) (fun k => by simp [asm, len]),
      fun _ h => by simp [isAlt] at h⟩
  | lit s =>
    exact ⟨fun _ _ => split_head (op := 8) (B := s ++ [0]) (by omega) (by simp [len]) (fun k => by simp [asm, len]),
      fun _ h => by simp [isAlt] at h⟩
  | group no r ih =>
    refine ⟨fun h _ => ?_, fun _ h => by simp [isAlt] at h⟩
    have hl := asmAlt_length h.2.2.2 h.2.2.1 (some 0) (some 0)
    refine ⟨node (20 + no) 3 ++ asmAlt r (some 0) (some 0), 30 + no, [], by omega, ?_, fun k => ?_, ?_⟩
    · simp [node, len, hl]
    · simp only [asm, List.append_nil]
      congr 2
      simp [node, len, hl]
    · intro code a k hc hat
      simp only [asm] at hat
      have h1 := hat.left.left
      have h2 := hat.left.right
      have hb := hat.bound
      simp only [List.length_append, hl, node_length] at hb h2
      refine (At_step h1 (by omega) (by omega) (by omega)).trans ?_
      have := (ih.2 h.2.2.2 h.2.2.1).reach_end hc h2 (by omega)
      simp only [List.length_append, hl, node_length]
      exact this.cast (by omega) (by omega)
  | star r ih =>
    refine ⟨fun h _ => ?_, fun _ h => by simp [isAlt] at h⟩
    have hl := asm_length h.2.2 h.1
    by_cases hs : simple r = true
    · exact split_head (op := 10) (B := asm r none) (by omega) (by simp [len, hs]) (fun k => by simp [asm, len, hs])
    · refine ⟨node 6 (len r + 6) ++ asm r (some 0) ++ node 7 (len r + 3) ++ node 6 3, 9, [], by omega, ?_, fun k => ?_, ?_⟩
      · simp [node, len, hl, hs]
      · simp only [asm, hs, List.append_nil]
        simp [node, len, hl, hs]
      · intro code a k hc hat
        simp [asm, hs] at hat
        have hb := hat.bound
        simp only [List.length_append, hl, node_length] at hb
        refine (At_step hat.left (by omega) (by omega) (by omega)).trans ?_
        have h2 := hat.right.right.right.left
        simp only [node_length, hl] at h2
        have h3 := At_step h2 (by omega) (by omega) (by omega)
        simp only [List.length_append, hl, node_length]
        exact h3.cast (by omega) (by omega)
  | plus r ih =>
    refine ⟨fun h _ => ?_, fun _ h => by simp [isAlt] at h⟩
    have hl := asm_length h.2.2 h.1
    by_cases hs : simple r = true
    · exact split_head (op := 11) (B := asm r none) (by omega) (by simp [len, hs]) (fun k => by simp [asm, len, hs])
    · refine ⟨asm r (some 0) ++ node 6 6 ++ node 7 (len r + 3) ++ node 6 3, 9, [], by omega, ?_, fun k => ?_, ?_⟩
      · simp [node, len, hl, hs]
      · simp only [asm, hs, List.append_nil]
        simp [node, len, hl, hs]
      · intro code a k hc hat
        simp [asm, hs] at hat
        have hb := hat.bound
        simp only [List.length_append, hl, node_length] at hb
        refine ((ih.1 h.2.2 h.1).reach_end hc hat.left (by omega)).trans ?_
        have h1 := hat.right.left
        have h2 := hat.right.right.right.left
        simp only [node_length, hl] at h1 h2
        refine (At_step h1 (by omega) (by omega) (by omega)).trans ?_
        have h3 := At_step h2 (by omega) (by omega) (by omega)
        simp only [List.length_append, hl, node_length]
        exact h3.cast (by omega) (by omega)
  | opt r ih =>
    refine ⟨fun h _ => ?_, fun _ h => by simp [isAlt] at h⟩
    have hl := asm_length h.2 h.1
    refine ⟨node 6 (len r + 3) ++ asm r (some 3) ++ node 6 3, 9, [], by omega, ?_, fun k => ?_, ?_⟩
    · simp [node, len, hl]
    · simp only [asm, List.append_nil]
      simp [node, len, hl]
    · intro code a k hc hat
      simp [asm] at hat
      have hb := hat.bound
      simp only [List.length_append, hl, node_length] at hb
      refine (At_step hat.left (by omega) (by omega) (by omega)).trans ?_
      have h2 := hat.right.right.left
      simp only [node_length, hl] at h2
      have h3 := At_step h2 (by omega) (by omega) (by omega)
      simp only [List.length_append, hl, node_length]
      exact h3.cast (by omega) (by omega)
  | cat a b iha ihb =>
    refine ⟨fun h _ => ?_, fun _ h => by simp [isAlt] at h⟩
    have hl := asm_length h.2.2.1 h.1
    obtain ⟨A, op, B, h7, hle, heq, hr⟩ := ihb.1 h.2.2.2 h.2.1
    refine ⟨asm a (some 0) ++ A, op, B, h7, ?_, fun k => ?_, ?_⟩
    · simp [len, hl]; omega
    · simp only [asm, heq, List.length_append, hl, len]
      have : len a + len b - (len a + A.length) = len b - A.length := by omega
      simp [this]
    · intro code x k hc hat
      have hat' := hat
      simp only [asm] at hat
      have hb := hat.bound
      simp only [List.length_append, hl, asm_length h.2.2.2 h.2.1] at hb
      refine ((iha.1 h.2.2.1 h.1).reach_end hc hat.left (by omega)).trans ?_
      have h1 := hat.right
      simp only [hl] at h1
      have := hr code _ k hc h1
      simp only [List.length_append, hl]
      exact this.cast (by omega) (by omega)
  | last a ih =>
    refine ⟨fun _ h => by simp [isAlt] at h, fun h _ ko => ?_⟩
    exact ⟨[], asm a ko, by simp [len], fun kc => by simp [asmAlt, len], fun _ _ _ _ _ => .refl _⟩
  | alt a b iha ihb =>
    refine ⟨fun _ h => by simp [isAlt] at h, fun h _ ko => ?_⟩
    have hl := asm_length h.2.2.1 h.1
    obtain ⟨A, B, hle, heq, hr⟩ := ihb.2 h.2.2.2 h.2.1 ko
    refine ⟨node 6 (len a + 3) ++ asm a (ko.map (len b + ·)) ++ A, B, ?_, fun kc => ?_, ?_⟩
    · simp [len, hl, node]; omega
    · simp only [asmAlt, heq, List.length_append, hl, len, node_length]
      have : len a + 3 + len b - (3 + len a + A.length) = len b - A.length := by omega
      simp [this]
    · intro code x kc hc hat
      simp only [asmAlt] at hat
      have hb := hat.bound
      simp only [List.length_append, hl, asmAlt_length h.2.2.2 h.2.1, node_length] at hb
      refine (At_step hat.left.left (by omega) (by omega) (by omega)).trans ?_
      have h1 := hat.right
      simp only [List.length_append, hl, node_length] at h1
      have h1' : At code (x + (len a + 3)) (asmAlt b kc ko) := by rwa [Nat.add_comm 3] at h1
      have := hr code _ kc hc h1'
      simp only [List.length_append, hl, node_length]
      exact this.cast (by omega) (by omega)

theorem hasSplit {r : Re} (h : r.wf) (ha : r.isAlt = false) : HasSplit r := (splits r).1 h ha
theorem hasSplitAlt {r : Re} (h : r.wf) (ha : r.isAlt = true) : HasSplitAlt r := (splits r).2 h ha

end Re

end Vital.Regex
