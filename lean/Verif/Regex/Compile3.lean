/-
  The result of `compile` as a function of the tree.
-/
import Verif.Regex.Compile2

namespace Vital.Regex
open Re

/-- The program of a tree. -/
def progOf (r : Re) : List Nat := 156 :: (asmAlt r (some 0) (some 0) ++ node 0 0)

/-- An expression, with a bound on the depth. -/
def parseN (n : Nat) (exp : List Nat) : Option Re :=
  match pAll (pGroup n) exp 1 with
  | some (r, [], _) => some r
  | _ => none

theorem reg_top (n : Nat) (s : CS) (h0 : 0 ∉ s.rest) (h1 : s.npar = 1) :
    match parseN n s.rest with
    | none => s.mem = none → reg (n + 1) false s = none
    | some r => bnd s (len r + 3) → ∃ np, reg (n + 1) false s =
        some (adr s, flagsB r, regc (asmAlt r (some 0) (some 0) ++ node 0 0) { s with rest := [], npar := np }) := by
  have ih := reg_spec n
  have hok := pGroup_ok n
  have hp := regpiece_spec (regatom_spec ih hok (pGroup_not_simple n)) (pAtom_ok hok)
  have hbr := regbranch_spec hp hok
  have hrn : ∀ t np' m, ({ s with rest := t, npar := np' } : CS).mem = some m → adr s = m.length := by
    intro t np' m hm; simp only at hm; simp [adr, hm]
  simp only [parseN, pAll]
  cases hb1 : pBranch (pGroup n) s.rest 1 with
  | none =>
    simp only
    intro hm
    have := hbr.none (s := s) h0 (by omega) (by rw [h1]; exact hb1) hm
    simp [reg, this]
  | some v =>
    obtain ⟨b, t1, np1⟩ := v
    obtain ⟨hbw, hba, ht1, -, hnp1⟩ := pBranch_ok hok h0 (by omega) hb1
    have hbl := branchCode_length hbw hba
    have hlw : (Re.last b).wf := ⟨hba, hbw⟩
    have hpre : PreOk [] := Or.inl rfl
    have g1 : bnd s (len b + 3) → regbranch (reg n true) s =
        some (adr s, flagsB b, regc (asmAlt (.last b) none none) { s with rest := t1, npar := np1 }) := by
      intro hb
      exact hbr.some h0 (by omega) (by rw [h1]; exact hb1) (by rw [hbl]; exact hb)
    simp only
    have hal := altLoop_spec hbr hok s hpre (ret := adr s) (by intro m hm; simp [adr, hm]) (t1.length + 1) (.last b) t1 np1 hlw rfl ht1 (by omega)
    simp only [List.nil_append] at hal
    cases hp2 : pAlts (pGroup n) (t1.length + 1) (.last b) t1 np1 with
    | none =>
      simp only [hp2] at hal ⊢
      intro hm
      have hal2 : altLoop (reg n true) (adr s) (t1.length + 1) { width := (flagsB b).width, sp := (flagsB b).sp }
                (regc (asmAlt (.last b) none none) { s with rest := t1, npar := np1 }) = none := hal hm
      simp only [reg, Bool.false_eq_true, false_and, if_false, g1 (bnd_none hm _), regc_rest, hal2]
    | some w =>
      obtain ⟨r, t2, np2⟩ := w
      obtain ⟨hrw, hra, ht2, -, -, hle⟩ := pAlts_ok hok _ _ _ _ _ _ _ ht1 (by omega) hlw rfl hp2
      simp only [len] at hle
      simp only [hp2] at hal
      have ready : bnd s (len r + 3) → _ ∧ _ ∧ _ := fun hb =>
        have hal2 : altLoop (reg n true) (adr s) (t1.length + 1) { width := (flagsB b).width, sp := (flagsB b).sp }
            (regc (asmAlt (.last b) none none) { s with rest := t1, npar := np1 }) =
            some (flagsB r, regc (asmAlt r none none) { s with rest := t2, npar := np2 }) :=
          hal (bnd_mono hb (by simp))
        have h5 := alts_tail hpre (s0 := { s with rest := t2, npar := np2 }) (ret := adr s) hrw hra (hrn _ _) (node 0 0)
          (bnd_with (bnd_mono hb (by simp [node])) _ _)
          (val := adr (regc (asmAlt r none none) { s with rest := t2, npar := np2 }))
          (by intro m hm
              simp only at hm
              simp [adr, regc, hm, asmAlt_length hrw hra])
        have h6 := close_spec hpre (s0 := { s with rest := t2, npar := np2 }) (ret := adr s) (e := 0)
          (N := ((regc ([] ++ asmAlt r (some 0) none ++ node 0 0) { s with rest := t2, npar := np2 }).mem.getD []).length + 1)
          hrw hra (by omega) (hrn _ _) (bnd_with (bnd_mono hb (by simp)) _ _)
          (by intro m hm
              simp only at hm
              simp [regc, hm, asmAlt_length hrw hra, node]; omega) (by omega)
        ⟨hal2, h5, h6⟩
      cases t2 with
      | nil =>
        simp only
        intro hb
        obtain ⟨g3, g4, g5⟩ := ready hb
        simp only [List.nil_append] at g4 g5
        refine ⟨np2, ?_⟩
        simp only [reg, Bool.false_eq_true, false_and, if_false, g1 (bnd_mono hb (by omega)), regc_rest, g3, regnode_eq, regc_regc, g4, g5]
      | cons c t2 =>
        simp only
        intro hm
        obtain ⟨g3, g4, g5⟩ := ready (bnd_none hm _)
        simp only [List.nil_append] at g4 g5
        simp only [reg, Bool.false_eq_true, false_and, if_false, g1 (bnd_none hm _), regc_rest, g3, regnode_eq, regc_regc, g4, g5]

/-! ### The optimizations -/

/-- The first piece of a branch. -/
def leftmost : Re → Re
  | .cat a _ => leftmost a
  | .plus r => if r.simple then .plus r else leftmost r
  | r => r

/-- The best literal so far after a branch. -/
def mustO (best : Option (List Nat)) : Re → Option (List Nat)
  | .cat a b => mustO (mustO best a) b
  | .plus r => if r.simple then best else mustO best r
  | .lit s => if (best.getD []).length ≤ s.length then some s else best
  | _ => best

/-- The compiled expression of a tree. -/
def optOf (r : Re) : Prog :=
  match r with
  | .last b =>
    ⟨progOf r, match leftmost b with | .lit s => s.headD 0 | _ => 0, leftmost b == .bol, if b.spstart then mustO none b else none⟩
  | _ => ⟨progOf r, 0, false, none⟩

theorem cstr_of {code : List Nat} {a : Nat} {s : List Nat} (h : At code a (s ++ [0])) (h0 : 0 ∉ s) : cstr code a = some s := by
  obtain ⟨p, t, rfl, hp⟩ := h
  have hd : (p ++ (s ++ [0]) ++ t).drop a = s ++ 0 :: t := by
    subst hp; simp
  have ht : ∀ s : List Nat, 0 ∉ s → (s ++ 0 :: t).takeWhile (fun b => b != 0) = s := by
    intro s
    induction s with
    | nil => intro _; simp
    | cons x s ih =>
      intro h
      simp only [List.mem_cons, not_or] at h
      have : (x != 0) = true := by simpa using fun e : x = 0 => h.1 e.symm
      simp [this, ih h.2]
  simp only [cstr, hd, ht s h0]
  simp

/-- The loop gets from one node to another. -/
def Walk (code : List Nat) (a : Nat) (best : Option (List Nat)) (a' : Nat) (best' : Option (List Nat)) : Prop :=
  ∀ N, code.length + 1 ≤ N + a → ∃ N', code.length + 1 ≤ N' + a' ∧ mustLoop code N a best = mustLoop code N' a' best'

theorem Walk.trans {code a b c x y z} (h : Walk code a x b y) (g : Walk code b y c z) : Walk code a x c z := by
  intro N hN
  obtain ⟨N1, h1, e1⟩ := h N hN
  obtain ⟨N2, h2, e2⟩ := g N1 h1
  exact ⟨N2, h2, e1.trans e2⟩

theorem Walk.step {code : List Nat} {a op d : Nat} (best : Option (List Nat)) (h : At code a (node op d)) (h8 : op ≠ 8) (h7 : op ≠ 7) (hd : 0 < d)
    (hb : d < 65536) {a' : Nat} (ha : a' = a + d) : Walk code a best a' best := by
  intro N hN
  have hbd := h.bound
  simp only [node_length] at hbd
  obtain ⟨N, rfl⟩ : ∃ k, N = k + 1 := ⟨N - 1, by omega⟩
  refine ⟨N, by omega, ?_⟩
  have hn : regnext code a = some a' := by rw [h.next hb, ha]; simp [h7]; omega
  simp [mustLoop, h.op, h8, hn]

theorem Walk.lit {code : List Nat} {a d : Nat} (best : Option (List Nat)) {s : List Nat} (h0 : 0 ∉ s) (h : At code a (node 8 d ++ s ++ [0])) (hd : 0 < d)
    (hb : d < 65536) {a' : Nat} (ha : a' = a + d) : Walk code a best a' (mustO best (.lit s)) := by
  intro N hN
  have hbd := h.bound
  simp only [node_length, List.length_append] at hbd
  obtain ⟨N, rfl⟩ : ∃ k, N = k + 1 := ⟨N - 1, by omega⟩
  refine ⟨N, by omega, ?_⟩
  have hn : regnext code a = some a' := by rw [h.left.left.next hb, ha]; simp; omega
  have hc : cstr code (a + 3) = some s := cstr_of (by rw [List.append_assoc] at h; exact h.right) h0
  simp [mustLoop, h.left.left.op, hc, hn, mustO]

theorem walk_alt {code : List Nat} (hc : code.length < 65536) (best : Option (List Nat)) (r : Re) : ∀ a k ko, r.wf → r.isAlt = true →
    At code a (asmAlt r (some k) ko) → a + len r + k ≤ code.length → Walk code a best (a + len r + k) best := by
  induction r with
  | last b _ =>
    intro a k ko hw ha hat hk
    simp only [asmAlt, len, off] at hat hk ⊢
    exact Walk.step best hat.left (by omega) (by omega) (by omega) (by omega) (by omega)
  | alt x b _ ih =>
    intro a k ko hw ha hat hk
    simp only [asmAlt, len] at hat hk ⊢
    have h1 := hat.right
    simp only [List.length_append, node_length, asm_length hw.2.2.1 hw.1] at h1
    refine (Walk.step (a' := a + (3 + len x)) best hat.left.left (by omega) (by omega) (by omega) (by omega) (by omega)).trans ?_
    have := ih _ k ko hw.2.2.2 hw.2.1 h1 (by omega)
    rwa [show a + (3 + len x) + len b + k = a + (len x + 3 + len b) + k by omega] at this
  | _ => intro a k ko hw ha; simp [isAlt] at ha

theorem walk_asm {code : List Nat} (hc : code.length < 65536) (r : Re) : ∀ best a k, r.wf → r.isAlt = false →
    At code a (asm r (some k)) → a + len r + k ≤ code.length → Walk code a best (a + len r + k) (mustO best r) := by
  induction r with
  | bol => intro best a k _ _ hat hk; exact Walk.step best hat (by omega) (by omega) (by simp [off]; omega) (by simp [off, len] at *; omega) (by simp [off, len]; omega)
  | eol => intro best a k _ _ hat hk; exact Walk.step best hat (by omega) (by omega) (by simp [off]; omega) (by simp [off, len] at *; omega) (by simp [off, len]; omega)
  | any => intro best a k _ _ hat hk; exact Walk.step best hat (by omega) (by omega) (by simp [off]; omega) (by simp [off, len] at *; omega) (by simp [off, len]; omega)
  | nothing => intro best a k _ _ hat hk; exact Walk.step best hat (by omega) (by omega) (by simp [off]; omega) (by simp [off, len] at *; omega) (by simp [off, len]; omega)
  | set neg cs =>
    intro best a k _ _ hat hk
    simp only [asm] at hat
    exact Walk.step best hat.left.left (by cases neg <;> simp) (by cases neg <;> simp) (by simp [off]; omega) (by simp [off, len] at *; omega) (by simp [off, len]; omega)
  | lit s =>
    intro best a k hw _ hat hk
    simp only [asm] at hat
    exact Walk.lit best hw.2 hat (by simp [off]; omega) (by simp [off, len] at *; omega) (by simp [off, len]; omega)
  | group no r ih =>
    intro best a k hw _ hat hk
    simp only [asm, len] at hat hk ⊢
    have hl := asmAlt_length hw.2.2.2 hw.2.2.1 (some 0) (some 0)
    have h1 := hat.left.right
    have h2 := hat.right
    simp only [List.length_append, node_length, hl] at h1 h2
    refine (Walk.step (a' := a + 3) best hat.left.left (by have := hw.1; omega) (by omega) (by omega) (by omega) (by omega)).trans ?_
    refine (walk_alt hc best r (a + 3) 0 (some 0) hw.2.2.2 hw.2.2.1 h1 (by omega)).trans ?_
    rw [show a + 3 + len r + 0 = a + (3 + len r) by omega]
    exact Walk.step best h2 (by omega) (by omega) (by simp [off]; omega) (by simp [off]; omega) (by simp [off]; omega)
  | star r _ =>
    intro best a k hw _ hat hk
    have hl := asm_length hw.2.2 hw.1
    by_cases hs : simple r = true
    · simp only [asm, len, hs, if_true] at hat hk ⊢
      exact Walk.step best hat.left (by omega) (by omega) (by simp [off]; omega) (by simp [off]; omega) (by simp [off]; omega)
    · simp [asm, len, hs] at hat hk ⊢
      have h2 := hat.right.right.right
      simp only [node_length, hl] at h2
      have h3 := h2.right
      simp only [node_length] at h3
      refine (Walk.step (a' := a + 3 + len r + 3) best hat.left (by omega) (by omega) (by omega) (by omega) (by omega)).trans ?_
      refine (Walk.step (a' := a + 3 + len r + 3 + 3) best h2.left (by omega) (by omega) (by omega) (by omega) (by omega)).trans ?_
      exact Walk.step best h3 (by omega) (by omega) (by simp [off]; omega) (by simp [off]; omega) (by simp [off]; omega)
  | plus r ih =>
    intro best a k hw _ hat hk
    have hl := asm_length hw.2.2 hw.1
    by_cases hs : simple r = true
    · simp only [asm, len, hs, if_true, mustO] at hat hk ⊢
      exact Walk.step best hat.left (by omega) (by omega) (by simp [off]; omega) (by simp [off]; omega) (by simp [off]; omega)
    · simp [asm, len, hs, mustO] at hat hk ⊢
      have h1 := hat.right
      simp only [hl] at h1
      have h2 := h1.right.right
      simp only [node_length] at h2
      have h3 := h2.right
      simp only [node_length] at h3
      refine (ih best a 0 hw.2.2 hw.1 hat.left (by omega)).trans ?_
      refine (Walk.step (a' := a + len r + 3 + 3) _ h1.left (by omega) (by omega) (by omega) (by omega) (by omega)).trans ?_
      refine (Walk.step (a' := a + len r + 3 + 3 + 3) _ h2.left (by omega) (by omega) (by omega) (by omega) (by omega)).trans ?_
      exact Walk.step _ h3 (by omega) (by omega) (by simp [off]; omega) (by simp [off]; omega) (by simp [off]; omega)
  | opt r _ =>
    intro best a k hw _ hat hk
    have hl := asm_length hw.2 hw.1
    simp [asm, len] at hat hk ⊢
    have h2 := hat.right.right
    simp only [node_length, hl] at h2
    have h3 := h2.right
    simp only [node_length] at h3
    refine (Walk.step (a' := a + 3 + len r) best hat.left (by omega) (by omega) (by omega) (by omega) (by omega)).trans ?_
    refine (Walk.step (a' := a + 3 + len r + 3) best h2.left (by omega) (by omega) (by omega) (by omega) (by omega)).trans ?_
    exact Walk.step best h3 (by omega) (by omega) (by simp [off]; omega) (by simp [off]; omega) (by simp [off]; omega)
  | cat x b ihx ihb =>
    intro best a k hw _ hat hk
    simp only [asm, len] at hat hk ⊢
    have h1 := hat.right
    rw [asm_length hw.2.2.1 hw.1] at h1
    have w1 := ihx best a 0 hw.2.2.1 hw.1 hat.left (by omega)
    have w2 := ihb (mustO best x) _ k hw.2.2.2 hw.2.1 h1 (by omega)
    rw [show a + len x + len b + k = a + (len x + len b) + k by omega] at w2
    exact w1.trans w2
  | last a _ => intro best a k hw ha; simp [isAlt] at ha
  | alt a b _ _ => intro best a k hw ha; simp [isAlt] at ha

/-- Opcode of the first node. -/
def firstOp : Re → Nat
  | .bol => 1
  | .eol => 2
  | .any => 3
  | .set neg _ => if neg then 5 else 4
  | .lit _ => 8
  | .nothing => 9
  | .group no _ => 20 + no
  | .star r => if r.simple then 10 else 6
  | .plus r => if r.simple then 11 else firstOp r
  | .opt _ => 6
  | .cat a _ => firstOp a
  | .last _ => 6
  | .alt _ _ => 6

theorem firstOp_at {code : List Nat} (r : Re) : ∀ a k, r.wf → r.isAlt = false → At code a (asm r k) → code[a]? = some (firstOp r) := by
  induction r with
  | bol => intro a k _ _ h; exact At.op h
  | eol => intro a k _ _ h; exact At.op h
  | any => intro a k _ _ h; exact At.op h
  | nothing => intro a k _ _ h; exact At.op h
  | set neg cs => intro a k _ _ h; simp only [asm] at h; exact h.left.left.op
  | lit s => intro a k _ _ h; simp only [asm] at h; exact h.left.left.op
  | group no r _ => intro a k _ _ h; simp only [asm] at h; exact h.left.left.op
  | star r _ =>
    intro a k _ _ h
    by_cases hs : simple r = true
    · simp only [asm, hs, if_true] at h; simp only [firstOp, hs, if_true]; exact h.left.op
    · simp [asm, hs] at h; simp [firstOp, hs]; exact h.left.op
  | plus r ih =>
    intro a k hw _ h
    by_cases hs : simple r = true
    · simp only [asm, hs, if_true] at h; simp only [firstOp, hs, if_true]; exact h.left.op
    · simp [asm, hs] at h; simp [firstOp, hs]; exact ih _ _ hw.2.2 hw.1 h.left
  | opt r _ => intro a k _ _ h; simp only [asm] at h; exact h.left.left.left.op
  | cat x b ih _ => intro a k hw _ h; simp only [asm] at h; exact ih _ _ hw.2.2.1 hw.1 h.left
  | last b _ => intro a k _ ha; simp [isAlt] at ha
  | alt x b _ _ => intro a k _ ha; simp [isAlt] at ha

theorem leftmost_at {code : List Nat} (r : Re) : ∀ a k, r.wf → r.isAlt = false → At code a (asm r k) →
    (leftmost r).wf ∧ (leftmost r).isAlt = false ∧ (∀ x b, leftmost r ≠ .cat x b) ∧ (∀ x, leftmost r = .plus x → x.simple = true) ∧
    ∃ k', At code a (asm (leftmost r) k') := by
  induction r with
  | plus r ih =>
    intro a k hw ha h
    by_cases hs : simple r = true
    · simp only [leftmost, hs, if_true]; exact ⟨hw, ha, (fun _ _ h => by cases h), (fun x hx => by cases hx; exact hs), k, h⟩
    · simp [asm, hs] at h; simp only [leftmost, hs]; exact ih _ _ hw.2.2 hw.1 h.left
  | cat x b ih _ => intro a k hw _ h; simp only [asm] at h; exact ih _ _ hw.2.2.1 hw.1 h.left
  | last b _ => intro a k _ ha; simp [isAlt] at ha
  | alt x b _ _ => intro a k _ ha; simp [isAlt] at ha
  | _ => intro a k hw ha h; exact ⟨hw, ha, (fun _ _ h => by cases h), (fun _ h => by cases h), k, h⟩

theorem progOf_length {r : Re} (hw : r.wf) (ha : r.isAlt = true) : (progOf r).length = len r + 4 := by
  simp [progOf, asmAlt_length hw ha, node]

theorem progOf_at (r : Re) : At (progOf r) 1 (asmAlt r (some 0) (some 0) ++ node 0 0) := ⟨[156], [], by simp [progOf], rfl⟩

/-- The optimizations are found in the program. -/
theorem dig_progOf {r : Re} (hw : r.wf) (ha : r.isAlt = true) (hl : len r + 4 < 65536) : dig (progOf r) r.spstart = some (optOf r) := by
  have hlen := progOf_length hw ha
  have hat := progOf_at r
  have hend := hat.right
  rw [asmAlt_length hw ha] at hend
  cases r with
  | last b =>
    have hbw : b.wf := hw.2
    have hba : b.isAlt = false := hw.1
    simp only [len] at hl hend hlen
    have h6 := hat.left
    simp only [asmAlt, off] at h6
    have hn : regnext (progOf (.last b)) 1 = some (1 + (len b + 3)) := by
      rw [h6.left.next (by omega)]; simp
    have hb4 := h6.right
    simp only [node_length] at hb4
    obtain ⟨lw, la, lc, lp, k', hat'⟩ := leftmost_at b _ _ hbw hba hb4
    have hfo := firstOp_at (leftmost b) _ _ lw la hat'
    have hmust : mustLoop (progOf (.last b)) ((progOf (.last b)).length + 1) 4 none = some (mustO none b) := by
      obtain ⟨N', hN', e⟩ := walk_asm (by omega) b none 4 0 hbw hba hb4 (by omega) ((progOf (.last b)).length + 1) (by omega)
      rw [e]
      obtain ⟨N', rfl⟩ : ∃ k, N' = k + 1 := ⟨N' - 1, by omega⟩
      have hend' : At (progOf (.last b)) (4 + len b + 0) (node 0 0) := by
        rw [show 4 + len b + 0 = 1 + (len b + 3) by omega]; exact hend
      have : regnext (progOf (.last b)) (4 + len b + 0) = none := by rw [hend'.next (by omega)]; simp
      have h0 := hend'.op
      simp only [Nat.add_zero] at h0 this ⊢
      simp [mustLoop, h0, this]
    simp only [dig, hn, hend.op, if_true, spstart]
    have hst : (if (progOf (.last b))[4]? = some 8 then (progOf (.last b))[4 + 3]?.getD 0 else 0) =
        (match leftmost b with | .lit s => s.headD 0 | _ => 0) := by
      rw [hfo]
      cases hlm : leftmost b with
      | lit s =>
        rw [hlm] at hat' lw
        simp only [asm] at hat'
        have h0 := lw.1
        cases s with
        | nil => exact absurd rfl h0
        | cons c s =>
          have := hat'.get 3 (by simp [node])
          simp [node] at this
          simp [firstOp, this]
      | cat x b => exact absurd hlm (lc _ _)
      | plus x => simp [firstOp, lp _ hlm]
      | star x => simp only [firstOp]; split <;> simp
      | set neg cs => cases neg <;> simp [firstOp]
      | last x => rw [hlm] at la; simp [isAlt] at la
      | alt x y => rw [hlm] at la; simp [isAlt] at la
      | _ => simp [firstOp] <;> omega
    have han : ((progOf (.last b))[4]? == some 1) = (leftmost b == .bol) := by
      rw [hfo]
      cases hlm : leftmost b with
      | bol => simp [firstOp]
      | cat x b => exact absurd hlm (lc _ _)
      | plus x => simp [firstOp, lp _ hlm]
      | star x => simp only [firstOp]; split <;> rfl
      | set neg cs => cases neg <;> rfl
      | last x => rw [hlm] at la; simp [isAlt] at la
      | alt x y => rw [hlm] at la; simp [isAlt] at la
      | group no x =>
        have h1 : (some (firstOp (.group no x)) == some 1) = false := by simp [firstOp] <;> omega
        have h2 : ((Re.group no x) == .bol) = false := by simp
        rw [h1, h2]
      | _ => rfl
    rw [hst, han, hmust]
    by_cases hsp : b.spstart = true
    · simp [optOf, hsp]
    · simp [optOf, hsp]
  | alt x b =>
    have h6 := hat.left
    simp only [asmAlt] at h6
    simp only [len] at hl
    have hn : regnext (progOf (.alt x b)) 1 = some (1 + (len x + 3)) := by
      rw [h6.left.left.next (by omega)]; simp
    have hb6 : (progOf (.alt x b))[1 + (len x + 3)]? = some 6 := by
      have h2 := h6.right
      simp only [List.length_append, node_length, asm_length hw.2.2.1 hw.1] at h2
      rw [show 1 + (3 + len x) = 1 + (len x + 3) by omega] at h2
      have hba := hw.2.1
      cases b with
      | last y => simp only [asmAlt] at h2; exact h2.left.op
      | alt y z => simp only [asmAlt] at h2; exact h2.left.left.op
      | _ => simp [isAlt] at hba
    simp [dig, hn, hb6, optOf]
  | _ => simp [isAlt] at ha

/-- What `compile` does, from the tree. -/
theorem compile_eq (exp : List Nat) (h0 : 0 ∉ exp) :
    compile exp =
      match parse exp with
      | none => .error .refused
      | some r => if 32767 ≤ len r + 4 then .error .refused else .ok (optOf r) := by
  have t1 := reg_top 10 (regc [156] ⟨exp, 1, 0, none⟩) (by simpa [regc] using h0) rfl
  have t2 := reg_top 10 (regc [156] ⟨exp, 1, 0, some []⟩) (by simpa [regc] using h0) rfl
  have e1 : (regc [156] ⟨exp, 1, 0, none⟩).rest = exp := rfl
  have e2 : (regc [156] ⟨exp, 1, 0, some []⟩).rest = exp := rfl
  rw [e1] at t1; rw [e2] at t2
  have hpn : parseN 10 exp = parse exp := rfl
  rw [hpn] at t1 t2
  cases hp : parse exp with
  | none =>
    simp only [hp] at t1
    simp only [compile]
    rw [t1 rfl]
  | some r =>
    obtain ⟨hw, ha⟩ := parse_ok h0 hp
    have hl := asmAlt_length hw ha
    simp only [hp] at t1 t2
    obtain ⟨np1, g1⟩ := t1 (bnd_none rfl _)
    simp only [compile]
    rw [g1]
    simp only
    have hsz : (regc (asmAlt r (some 0) (some 0) ++ node 0 0)
        { regc [156] ⟨exp, 1, 0, none⟩ with rest := [], npar := np1 }).size = len r + 4 := by
      simp [regc, hl, node]; omega
    rw [hsz]
    by_cases hb : 32767 ≤ len r + 4
    · rw [if_pos hb, if_pos hb]
    · rw [if_neg hb, if_neg hb]
      obtain ⟨np2, g2⟩ := t2 (by intro m hm; simp [regc] at hm; subst hm; simp; omega)
      rw [g2]
      have hmem : (regc (asmAlt r (some 0) (some 0) ++ node 0 0)
          { regc [156] ⟨exp, 1, 0, some []⟩ with rest := [], npar := np2 }).mem = some (progOf r) := by
        simp [regc, progOf]
      simp only [hmem]
      rw [if_neg (by rw [progOf_length hw ha]; omega)]
      simp only [flagsB, dig_progOf hw ha (by omega)]

end Vital.Regex
