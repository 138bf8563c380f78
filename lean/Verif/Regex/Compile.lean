/-
  `compile` writes the code of the tree that the parser builds, in both passes.
-/
import Verif.Regex.Parse

namespace Vital.Regex
open Re

/-! ### States -/

/-- The address of the next node. -/
def adr (s : CS) : Nat :=
  match s.mem with
  | none => 0
  | some m => m.length

/-- There is room for `L` more bytes with 16 bit offsets. -/
def bnd (s : CS) (L : Nat) : Prop := ∀ m, s.mem = some m → m.length + L < 65536

theorem regnode_eq (op : Nat) (s : CS) : regnode op s = (adr s, regc (node op 0) s) := by
  cases hm : s.mem <;> simp [regnode, regc, adr, hm, node]

theorem regc_rest (c : List Nat) (s : CS) : (regc c s).rest = s.rest := by
  cases hm : s.mem <;> simp [regc, hm]
theorem regc_npar (c : List Nat) (s : CS) : (regc c s).npar = s.npar := by
  cases hm : s.mem <;> simp [regc, hm]
theorem regc_regc (a b : List Nat) (s : CS) : regc b (regc a s) = regc (a ++ b) s := by
  cases hm : s.mem <;> simp [regc, hm, Nat.add_assoc]
theorem regc_nil (s : CS) : regc [] s = s := by
  obtain ⟨r, n, z, m⟩ := s
  cases m <;> simp [regc]
theorem regc_with (c : List Nat) (s : CS) (t : List Nat) : { regc c s with rest := t } = regc c { s with rest := t } := by
  cases hm : s.mem <;> simp [regc, hm]
theorem regc_with2 (c : List Nat) (s : CS) (t : List Nat) (np : Nat) :
    { regc c s with rest := t, npar := np } = regc c { s with rest := t, npar := np } := by
  cases hm : s.mem <;> simp [regc, hm]
theorem regc_same_length {a b : List Nat} (h : a.length = b.length) (s : CS) (hm : s.mem = none) : regc a s = regc b s := by
  simp [regc, hm, h]
theorem adr_regc (c : List Nat) (s : CS) (m : List Nat) (hm : s.mem = some m) : adr (regc c s) = m.length + c.length := by
  simp [adr, regc, hm]
theorem bnd_regc {c : List Nat} {s : CS} {L : Nat} (h : bnd s (c.length + L)) : bnd (regc c s) L := by
  intro m hm
  cases hs : s.mem with
  | none => simp [regc, hs] at hm
  | some m0 =>
    simp [regc, hs] at hm
    have := h m0 hs
    subst hm; simp; omega
theorem bnd_with {s : CS} {L : Nat} (h : bnd s L) (t : List Nat) (np : Nat) : bnd { s with rest := t, npar := np } L := h
theorem bnd_mono {s : CS} {L L' : Nat} (h : bnd s L) (hl : L' ≤ L) : bnd s L' := fun m hm => by have := h m hm; omega

/-! ### Tails -/

/-- Arithmetic with lengths of code. -/
macro "lens" h:ident : tactic =>
  `(tactic| ((try simp only [List.length_append, $h:ident, node_length, List.length_nil, reduceIte, Nat.reduceEqDiff]) <;> omega))


theorem tail_asm {m pre suf : List Nat} {r : Re} (k : Nat) (hw : r.wf) (ha : r.isAlt = false) (hm : m = pre ++ asm r none ++ suf)
    (hl : m.length < 65536) {p val : Nat} (hp : p = pre.length) (hv : val = pre.length + len r + k) :
    tailCode m p val = some (pre ++ asm r (some k) ++ suf) := by
  obtain ⟨A, op, B, h7, hle, heq, hr⟩ := hasSplit hw ha
  have hat : At m pre.length (asm r none) := At.mk' hm
  have hreach := hr m pre.length none hl hat
  have hc : m = (pre ++ A) ++ node op 0 ++ (B ++ suf) := by rw [hm, heq]; simp [off]
  have := tailCode_of (p := pre.length) (val := pre.length + len r + k) hc (hreach.cast rfl (by simp))
  rw [hp, hv, this, heq]
  have e : pre.length + len r + k - (pre ++ A).length = off (some k) (len r - A.length) := by simp [off]; omega
  simp only [if_neg h7, e]; simp

theorem tail_alt {m pre suf : List Nat} {r : Re} (k : Nat) (ko : Option Nat) (hw : r.wf) (ha : r.isAlt = true)
    (hm : m = pre ++ asmAlt r none ko ++ suf) (hl : m.length < 65536) {p val : Nat} (hp : Reach m p pre.length)
    (hv : val = pre.length + len r + k) :
    tailCode m p val = some (pre ++ asmAlt r (some k) ko ++ suf) := by
  obtain ⟨A, B, hle, heq, hr⟩ := hasSplitAlt hw ha ko
  have hat : At m pre.length (asmAlt r none ko) := At.mk' hm
  have hreach := hr m pre.length none hl hat
  have hc : m = (pre ++ A) ++ node 6 0 ++ (B ++ suf) := by rw [hm, heq]; simp [off]
  have := tailCode_of (p := p) (val := pre.length + len r + k) hc (hp.trans (hreach.cast rfl (by simp)))
  rw [hv, this, heq]
  have e : pre.length + len r + k - (pre ++ A).length = off (some k) (len r - A.length) := by simp [off]; omega
  rw [if_neg (by omega), e]; simp

/-- A single node at the end of a chain. -/
theorem tail_node {m A B : List Nat} {op p val d : Nat} (hm : m = A ++ node op 0 ++ B) (hr : Reach m p A.length)
    (hd : d = if op = 7 then A.length - val else val - A.length) :
    tailCode m p val = some (A ++ node op d ++ B) := by rw [hd]; exact tailCode_of hm hr

theorem regoptail_some {rest : List Nat} {np z : Nat} {x y : List Nat} {p v d : Nat} (h : At x p (node 6 d)) (ht : tailCode x (p + 3) v = some y) :
    regoptail p v ⟨rest, np, z, some x⟩ = some ⟨rest, np, z, some y⟩ := by
  simp [regoptail, h.op, regtail, ht]

theorem regtail_some {rest : List Nat} {np z : Nat} {x y : List Nat} {p v : Nat} (ht : tailCode x p v = some y) :
    regtail p v ⟨rest, np, z, some x⟩ = some ⟨rest, np, z, some y⟩ := by
  simp [regtail, ht]

theorem star_mem (rest : List Nat) (np z : Nat) (m : List Nat) (r : Re) (hw : r.wf) (ha : r.isAlt = false) (hs : r.simple = false)
    (hb : m.length + (len r + 12) < 65536) :
    quantify 42 false m.length ⟨rest, np, z, some (m ++ asm r none)⟩ = some ⟨rest, np, z, some (m ++ asm (.star r) none)⟩ := by
  have hl := asm_length hw ha
  have e0 : reginsert 6 m.length ⟨rest, np, z, some (m ++ asm r none)⟩ = ⟨rest, np, z, some (m ++ node 6 0 ++ asm r none)⟩ := by
    simp [reginsert]
  have e1 : regoptail m.length (m ++ node 6 0 ++ asm r none).length ⟨rest, np, z, some (m ++ node 6 0 ++ asm r none ++ node 7 0)⟩ =
      some ⟨rest, np, z, some (m ++ node 6 0 ++ asm r (some 0) ++ node 7 0)⟩ := by
    refine regoptail_some (d := 0) (At.mk' (pre := m) (suf := asm r none ++ node 7 0) (by simp)) ?_
    refine tail_asm 0 hw ha rfl ?_ ?_ ?_ <;> lens hl
  have e2 : regoptail m.length m.length ⟨rest, np, z, some (m ++ node 6 0 ++ asm r (some 0) ++ node 7 0)⟩ =
      some ⟨rest, np, z, some (m ++ node 6 0 ++ asm r (some 0) ++ node 7 (len r + 3))⟩ := by
    refine regoptail_some (d := 0) (At.mk' (pre := m) (suf := asm r (some 0) ++ node 7 0) (by simp)) ?_
    have hre : Reach (m ++ node 6 0 ++ asm r (some 0) ++ node 7 0) (m.length + 3) (m ++ node 6 0 ++ asm r (some 0)).length := by
      refine ((hasSplit hw ha).reach_end (a := m.length + 3) (k := 0) ?_ ?_ ?_).cast rfl ?_
      · lens hl
      · exact ⟨m ++ node 6 0, node 7 0, by simp, by simp [node]⟩
      · lens hl
      · lens hl
    have := tail_node (m := m ++ node 6 0 ++ asm r (some 0) ++ node 7 0) (op := 7) (B := []) (val := m.length) (d := len r + 3) (by simp) hre
      (by lens hl)
    simpa using this
  have e3 : regtail m.length (m ++ node 6 0 ++ asm r (some 0) ++ node 7 (len r + 3)).length
      ⟨rest, np, z, some (m ++ node 6 0 ++ asm r (some 0) ++ node 7 (len r + 3) ++ node 6 0)⟩ =
      some ⟨rest, np, z, some (m ++ node 6 (len r + 6) ++ asm r (some 0) ++ node 7 (len r + 3) ++ node 6 0)⟩ := by
    refine regtail_some ?_
    have := tail_node (m := m ++ node 6 0 ++ asm r (some 0) ++ node 7 (len r + 3) ++ node 6 0) (A := m) (op := 6)
      (B := asm r (some 0) ++ node 7 (len r + 3) ++ node 6 0)
      (val := (m ++ node 6 0 ++ asm r (some 0) ++ node 7 (len r + 3)).length) (d := len r + 6) (by simp) (.refl _)
      (by lens hl)
    simpa using this
  have e4 : regtail m.length (m ++ node 6 (len r + 6) ++ asm r (some 0) ++ node 7 (len r + 3) ++ node 6 0).length
      ⟨rest, np, z, some (m ++ node 6 (len r + 6) ++ asm r (some 0) ++ node 7 (len r + 3) ++ node 6 0 ++ node 9 0)⟩ =
      some ⟨rest, np, z, some (m ++ node 6 (len r + 6) ++ asm r (some 0) ++ node 7 (len r + 3) ++ node 6 3 ++ node 9 0)⟩ := by
    refine regtail_some ?_
    refine tail_node (A := m ++ node 6 (len r + 6) ++ asm r (some 0) ++ node 7 (len r + 3)) (op := 6) (B := node 9 0) rfl ?_
      (by lens hl)
    refine (At_step (op := 6) (d := len r + 6) (At.mk' (pre := m) (suf := asm r (some 0) ++ node 7 (len r + 3) ++ node 6 0 ++ node 9 0) (by simp))
      (by omega) (by omega) (by omega)).cast rfl ?_
    lens hl
  simp only [quantify, hs, and_false, if_false, Bool.false_eq_true, e0, Option.bind_eq_bind]
  simp only [regnode, Option.bind, e1, e2, e3, e4]
  simp [asm, hs, off]

theorem plus_mem (rest : List Nat) (np z : Nat) (m : List Nat) (r : Re) (hw : r.wf) (ha : r.isAlt = false) (hs : r.simple = false)
    (hb : m.length + (len r + 12) < 65536) :
    quantify 43 false m.length ⟨rest, np, z, some (m ++ asm r none)⟩ = some ⟨rest, np, z, some (m ++ asm (.plus r) none)⟩ := by
  have hl := asm_length hw ha
  have e1 : regtail m.length (m ++ asm r none).length ⟨rest, np, z, some (m ++ asm r none ++ node 6 0)⟩ =
      some ⟨rest, np, z, some (m ++ asm r (some 0) ++ node 6 0)⟩ := by
    refine regtail_some ?_
    refine tail_asm 0 hw ha rfl ?_ ?_ ?_ <;> lens hl
  have e2 : regtail (m ++ asm r (some 0) ++ node 6 0).length m.length ⟨rest, np, z, some (m ++ asm r (some 0) ++ node 6 0 ++ node 7 0)⟩ =
      some ⟨rest, np, z, some (m ++ asm r (some 0) ++ node 6 0 ++ node 7 (len r + 3))⟩ := by
    refine regtail_some ?_
    have := tail_node (m := m ++ asm r (some 0) ++ node 6 0 ++ node 7 0) (A := m ++ asm r (some 0) ++ node 6 0) (op := 7) (B := [])
      (p := (m ++ asm r (some 0) ++ node 6 0).length) (val := m.length) (d := len r + 3) (by simp) (.refl _) (by lens hl)
    simpa using this
  have e3 : regtail (m ++ asm r none).length (m ++ asm r (some 0) ++ node 6 0 ++ node 7 (len r + 3)).length
      ⟨rest, np, z, some (m ++ asm r (some 0) ++ node 6 0 ++ node 7 (len r + 3) ++ node 6 0)⟩ =
      some ⟨rest, np, z, some (m ++ asm r (some 0) ++ node 6 6 ++ node 7 (len r + 3) ++ node 6 0)⟩ := by
    refine regtail_some ?_
    have := tail_node (m := m ++ asm r (some 0) ++ node 6 0 ++ node 7 (len r + 3) ++ node 6 0) (A := m ++ asm r (some 0)) (op := 6)
      (p := (m ++ asm r none).length)
      (B := node 7 (len r + 3) ++ node 6 0) (val := (m ++ asm r (some 0) ++ node 6 0 ++ node 7 (len r + 3)).length) (d := 6) (by simp)
      ((Reach.refl _).cast rfl (by lens hl)) (by lens hl)
    simpa using this
  have e4 : regtail m.length (m ++ asm r (some 0) ++ node 6 6 ++ node 7 (len r + 3) ++ node 6 0).length
      ⟨rest, np, z, some (m ++ asm r (some 0) ++ node 6 6 ++ node 7 (len r + 3) ++ node 6 0 ++ node 9 0)⟩ =
      some ⟨rest, np, z, some (m ++ asm r (some 0) ++ node 6 6 ++ node 7 (len r + 3) ++ node 6 3 ++ node 9 0)⟩ := by
    refine regtail_some ?_
    refine tail_node (A := m ++ asm r (some 0) ++ node 6 6 ++ node 7 (len r + 3)) (op := 6) (B := node 9 0) rfl ?_
      (by lens hl)
    refine ((hasSplit hw ha).reach_end (a := m.length) (k := 0) ?_ ?_ ?_).trans ?_
    · lens hl
    · exact ⟨m, node 6 6 ++ node 7 (len r + 3) ++ node 6 0 ++ node 9 0, by simp, rfl⟩
    · lens hl
    · have h6 : At (m ++ asm r (some 0) ++ node 6 6 ++ node 7 (len r + 3) ++ node 6 0 ++ node 9 0) (m ++ asm r (some 0)).length (node 6 6) :=
        At.mk' (suf := node 7 (len r + 3) ++ node 6 0 ++ node 9 0) (by simp)
      refine (At_step h6 (by omega) (by omega) (by omega)).cast ?_ ?_ <;> lens hl
  simp only [quantify, Bool.false_eq_true, and_false, if_false, Option.bind_eq_bind, Nat.reduceEqDiff]
  simp only [regnode, Option.bind, e1, e2, e3, e4]
  simp [asm, hs, off]

theorem opt_mem (rest : List Nat) (np z : Nat) (m : List Nat) (r : Re) (simple : Bool) (hw : r.wf) (ha : r.isAlt = false)
    (hb : m.length + (len r + 9) < 65536) :
    quantify 63 simple m.length ⟨rest, np, z, some (m ++ asm r none)⟩ = some ⟨rest, np, z, some (m ++ asm (.opt r) none)⟩ := by
  have hl := asm_length hw ha
  have e0 : reginsert 6 m.length ⟨rest, np, z, some (m ++ asm r none)⟩ = ⟨rest, np, z, some (m ++ node 6 0 ++ asm r none)⟩ := by
    simp [reginsert]
  have e1 : regtail m.length (m ++ node 6 0 ++ asm r none).length ⟨rest, np, z, some (m ++ node 6 0 ++ asm r none ++ node 6 0)⟩ =
      some ⟨rest, np, z, some (m ++ node 6 (len r + 3) ++ asm r none ++ node 6 0)⟩ := by
    refine regtail_some ?_
    have := tail_node (m := m ++ node 6 0 ++ asm r none ++ node 6 0) (A := m) (op := 6) (p := m.length)
      (B := asm r none ++ node 6 0) (val := (m ++ node 6 0 ++ asm r none).length) (d := len r + 3) (by simp) (.refl _)
      (by lens hl)
    simpa using this
  have e2 : regtail m.length (m ++ node 6 (len r + 3) ++ asm r none ++ node 6 0).length
      ⟨rest, np, z, some (m ++ node 6 (len r + 3) ++ asm r none ++ node 6 0 ++ node 9 0)⟩ =
      some ⟨rest, np, z, some (m ++ node 6 (len r + 3) ++ asm r none ++ node 6 3 ++ node 9 0)⟩ := by
    refine regtail_some ?_
    refine tail_node (A := m ++ node 6 (len r + 3) ++ asm r none) (op := 6) (B := node 9 0) rfl ?_ (by lens hl)
    refine (At_step (op := 6) (d := len r + 3) (At.mk' (pre := m) (suf := asm r none ++ node 6 0 ++ node 9 0) (by simp))
      (by omega) (by omega) (by omega)).cast rfl ?_
    lens hl
  have e3 : regoptail m.length (m ++ node 6 (len r + 3) ++ asm r none ++ node 6 0).length
      ⟨rest, np, z, some (m ++ node 6 (len r + 3) ++ asm r none ++ node 6 3 ++ node 9 0)⟩ =
      some ⟨rest, np, z, some (m ++ node 6 (len r + 3) ++ asm r (some 3) ++ node 6 3 ++ node 9 0)⟩ := by
    refine regoptail_some (d := len r + 3) (At.mk' (pre := m) (suf := asm r none ++ node 6 3 ++ node 9 0) (by simp)) ?_
    have := tail_asm (m := m ++ node 6 (len r + 3) ++ asm r none ++ node 6 3 ++ node 9 0) (pre := m ++ node 6 (len r + 3))
      (suf := node 6 3 ++ node 9 0) 3 hw ha (by simp) (by lens hl) (p := m.length + 3)
      (val := (m ++ node 6 (len r + 3) ++ asm r none ++ node 6 0).length) (by lens hl) (by lens hl)
    simpa using this
  simp only [quantify, false_and, if_false, Option.bind_eq_bind, Nat.reduceEqDiff, e0]
  simp only [regnode, Option.bind, e1, e2, e3]
  simp [asm, off]

theorem quant_isAlt (op : Nat) (r : Re) : (quant op r).isAlt = false := by
  simp only [quant]; split
  · rfl
  · split <;> rfl

theorem quantify_spec (op : Nat) (hop : isMult op = true) (r : Re) (hw : r.wf) (ha : r.isAlt = false) (hq : (quant op r).wf) (s : CS)
    (hb : bnd s (len (quant op r))) :
    quantify op r.simple (adr s) (regc (asm r none) s) = some (regc (asm (quant op r) none) s) := by
  have hl := asm_length hw ha
  have hql := asm_length hq (quant_isAlt op r) none
  simp only [isMult, Bool.or_eq_true, beq_iff_eq] at hop
  cases hmem : s.mem with
  | none =>
    have key : ∀ z, z = s.size + len (quant op r) → some ({ s with size := z } : CS) = some (regc (asm (quant op r) none) s) := by
      intro z hz; simp [regc, hmem, hql, hz]
    rw [← key _ rfl]
    cases hs : r.simple <;> rcases hop with (h | h) | h <;> subst h <;>
        simp [quantify, hs, reginsert, regc, hmem, regnode, regoptail, regtail, hl, quant, len] <;> omega
  | some m =>
    have hbm := hb m hmem
    obtain ⟨rest, np, z, mm⟩ := s
    simp only at hmem
    subst hmem
    simp only [adr, regc]
    have hins : ∀ o, reginsert o m.length { rest := rest, npar := np, size := z, mem := some (m ++ asm r none) } =
        { rest := rest, npar := np, size := z, mem := some (m ++ (node o 0 ++ asm r none)) } := by
      intro o; simp [reginsert]
    rcases hop with (h | h) | h <;> subst h
    · cases hs : r.simple
      · exact star_mem rest np z m r hw ha hs (by simpa [quant, len, hs] using hbm)
      · simp [quantify, hins, quant, asm, off, hs]
    · cases hs : r.simple
      · exact plus_mem rest np z m r hw ha hs (by simpa [quant, len, hs] using hbm)
      · simp [quantify, hins, quant, asm, off, hs]
    · exact opt_mem rest np z m r _ hw ha (by simpa [quant, len] using hbm)

/-! ### The two recursions side by side -/

/-- The flags of an atom or a piece, and of a branch or an expression. -/
def flagsA (r : Re) : Flags := ⟨r.width, r.simple, r.spstart⟩
def flagsB (r : Re) : Flags := ⟨r.width, false, r.spstart⟩

/-- `f` compiles what `g` parses. -/
def Spec (f : CS → CRes) (g : List Nat → Nat → PRes) (fl : Re → Flags) (code : Re → List Nat) : Prop :=
  ∀ s : CS, 0 ∉ s.rest → 1 ≤ s.npar →
    match g s.rest s.npar with
    | none => s.mem = none → f s = none
    | some (r, t, np) => bnd s (code r).length → f s = some (adr s, fl r, regc (code r) { s with rest := t, npar := np })

theorem Spec.some {f g fl code} (h : Spec f g fl code) {s : CS} (h0 : 0 ∉ s.rest) (h1 : 1 ≤ s.npar) {r t np} (hg : g s.rest s.npar = some (r, t, np))
    (hb : bnd s (code r).length) : f s = .some (adr s, fl r, regc (code r) { s with rest := t, npar := np }) := by
  have := h s h0 h1
  rw [hg] at this
  exact this hb

theorem Spec.none {f g fl code} (h : Spec f g fl code) {s : CS} (h0 : 0 ∉ s.rest) (h1 : 1 ≤ s.npar) (hg : g s.rest s.npar = none)
    (hb : s.mem = .none) : f s = .none := by
  have := h s h0 h1
  rw [hg] at this
  exact this hb

theorem regatom_spec {reg preg} (h : Spec reg preg flagsB (fun r => asm r none)) (hok : POkFun preg)
    (hng : ∀ t np r t' np', preg t np = some (r, t', np') → r.simple = false) :
    Spec (regatom reg) (pAtom preg) flagsA (fun r => asm r none) := by
  intro s h0 h1
  obtain ⟨rest, np, z, m⟩ := s
  simp only at h0 h1
  cases rest with
  | nil => simp [pAtom, regatom]
  | cons c t =>
    simp only [List.mem_cons, not_or] at h0
    simp only [pAtom, regatom, regnode_eq]
    by_cases c94 : c = 94
    · simp only [c94, if_true]; intro _; rfl
    by_cases c36 : c = 36
    · simp only [c36, if_true, Nat.reduceEqDiff, if_false]; intro _; rfl
    by_cases c46 : c = 46
    · simp only [c46, if_true, Nat.reduceEqDiff, if_false]; intro _; rfl
    by_cases c91 : c = 91
    · simp only [c91, if_true, Nat.reduceEqDiff, if_false]
      cases hb : classBody t with
      | none => simp
      | some v =>
        obtain ⟨neg, cs, t'⟩ := v
        simp only
        intro _
        rw [regc_regc]
        simp only [asm, off, adr, flagsA, Re.width, Re.simple, Re.spstart, List.append_assoc]
    by_cases c40 : c = 40
    · simp only [c40, if_true, Nat.reduceEqDiff, if_false]
      cases hp : preg t np with
      | none =>
        simp only
        intro hm
        rw [h.none (s := ⟨t, np, z, m⟩) h0.2 h1 hp hm]
      | some v =>
        obtain ⟨r, t', np'⟩ := v
        simp only
        intro hb
        rw [h.some (s := ⟨t, np, z, m⟩) h0.2 h1 hp hb]
        simp only [flagsB, flagsA, hng _ _ _ _ _ hp, adr]
    simp only [c94, c36, c46, c91, c40, if_false]
    by_cases cp : c = 124 ∨ c = 41
    · simp [cp]
    simp only [cp, if_false]
    by_cases cm : isMult c = true
    · simp [cm]
    simp only [cm, if_false]
    by_cases c92 : c = 92
    · simp only [c92, if_true]
      cases t with
      | nil => simp
      | cons d t' =>
        simp only
        intro _
        rw [regc_regc]
        simp only [asm, off, adr, flagsA, Re.width, Re.simple, Re.spstart, List.append_assoc]; rfl
    · simp only [c92, if_false]
      by_cases hl : runLength (c :: t) = 0
      · simp [hl]
      · simp only [hl, if_false]
        intro _
        rw [regc_regc]
        have hle : runLength (c :: t) ≤ (c :: t).length := by
          simp only [runLength]
          have := (List.takeWhile_sublist (fun c => !isMeta c) (l := c :: t)).length_le
          split
          · split <;> omega
          · exact this
        have : (List.take (runLength (c :: t)) (c :: t)).length = runLength (c :: t) := by
          rw [List.length_take]; omega
        simp only [asm, off, adr, flagsA, Re.width, Re.simple, Re.spstart, List.append_assoc, this, Bool.false_eq_true, if_false]

theorem regpiece_spec {reg preg} (h : Spec (regatom reg) (pAtom preg) flagsA (fun r => asm r none)) (hok : POkFun (pAtom preg)) :
    Spec (regpiece reg) (pPiece preg) flagsA (fun r => asm r none) := by
  intro s h0 h1
  simp only [pPiece, regpiece]
  cases ha : pAtom preg s.rest s.npar with
  | none =>
    simp only
    intro hm
    rw [h.none h0 h1 ha hm]
  | some v =>
    obtain ⟨r, t, np⟩ := v
    obtain ⟨hw, hna, ht0, -, hnp⟩ := hok _ _ _ h0 h1 ha
    simp only at hw hna ht0 hnp
    have hl := asm_length hw hna none
    simp only
    cases t with
    | nil =>
      simp only
      intro hb
      rw [h.some h0 h1 ha hb]
      simp only [regc_rest]
    | cons op t =>
      simp only
      by_cases hm : isMult op = false
      · simp only [hm, if_true]
        intro hb
        rw [h.some h0 h1 ha hb]
        simp only [regc_rest, hm, if_true]
      · have hm' : isMult op = true := by simpa using hm
        simp only [hm', Bool.true_eq_false, if_false]
        by_cases hwd : r.width = false ∧ op ≠ 63
        · rw [if_pos hwd]
          intro hmem
          rw [h.some h0 h1 ha (by intro m hm; rw [hmem] at hm; cases hm)]
          simp only [regc_rest, hm', Bool.true_eq_false, if_false, flagsA, hwd, if_true, and_self, ne_eq, not_false_eq_true]
        · rw [if_neg hwd]
          have hq : (quant op r).wf := by
            have hw' : op ≠ 63 → r.width = true := by
              intro h63
              cases hwd' : r.width with
              | true => rfl
              | false => exact absurd ⟨hwd', h63⟩ hwd
            simp only [quant]
            split
            · exact ⟨hna, hw' (by omega), hw⟩
            · split
              · exact ⟨hna, hw' (by omega), hw⟩
              · exact ⟨hna, hw⟩
          have hql := asm_length hq (quant_isAlt op r) none
          have hle : len r ≤ len (quant op r) := by
            simp only [quant]; split
            · simp only [len]; split <;> omega
            · split
              · simp only [len]; split <;> omega
              · simp only [len]; omega
          have hfl : (⟨op == 43, false, op != 43⟩ : Flags) = flagsA (quant op r) := by
            simp only [isMult, Bool.or_eq_true, beq_iff_eq] at hm'
            rcases hm' with (h' | h') | h' <;> subst h' <;> rfl
          have key : bnd s (len (quant op r)) → regatom reg s = some (adr s, flagsA r, regc (asm r none) { s with rest := op :: t, npar := np }) ∧
              quantify op r.simple (adr s) (regc (asm r none) { s with rest := op :: t, npar := np }) =
                some (regc (asm (quant op r) none) { s with rest := op :: t, npar := np }) := by
            intro hb
            refine ⟨h.some h0 h1 ha (bnd_mono hb (by simp only [hl]; omega)), ?_⟩
            exact quantify_spec op hm' r hw hna hq { s with rest := op :: t, npar := np } hb
          cases t with
          | nil =>
            simp only
            intro hb
            obtain ⟨k1, k2⟩ := key (by simpa only [hql] using hb)
            simp only [k1, regc_rest, hm', Bool.true_eq_false, if_false]
            rw [if_neg (by simpa [flagsA] using hwd)]
            simp only [flagsA, k2, regc_with, hfl]
          | cons c t' =>
            simp only
            by_cases hmc : isMult c = true
            · rw [if_pos hmc]
              intro hmem
              obtain ⟨k1, k2⟩ := key (by intro m hm; rw [hmem] at hm; cases hm)
              simp only [k1, regc_rest, hm', Bool.true_eq_false, if_false]
              rw [if_neg (by simpa [flagsA] using hwd)]
              simp only [flagsA, k2, hmc, if_true]
            · rw [if_neg hmc]
              simp only
              intro hb
              obtain ⟨k1, k2⟩ := key (by simpa only [hql] using hb)
              simp only [k1, regc_rest, hm', Bool.true_eq_false, if_false]
              rw [if_neg (by simpa [flagsA] using hwd)]
              simp only [flagsA, k2, hmc, if_false, regc_with, Bool.false_eq_true, hfl]

end Vital.Regex
