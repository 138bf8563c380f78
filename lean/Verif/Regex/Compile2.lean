/-
  `compile` writes the code of the tree that the parser builds: branches, alternatives, groups and the whole.
-/
import Verif.Regex.Compile

namespace Vital.Regex
open Re

def codeO (acc : Option Re) : List Nat :=
  match acc with
  | none => []
  | some a => asm a none

def flO (acc : Option Re) : Flags :=
  match acc with
  | none => {}
  | some a => flagsB a

/-- `chain` is the address of the last piece of the branch so far. -/
def ChainOk (s0 : CS) (acc : Option Re) (chain : Option Nat) : Prop :=
  match acc, chain with
  | none, none => True
  | some a, some ch => ∃ A q, q.wf ∧ q.isAlt = false ∧ (∀ k, asm a k = A ++ asm q k) ∧ ∀ m, s0.mem = some m → ch = m.length + A.length
  | _, _ => False

theorem chain_tail {s0 : CS} {a q : Re} {ch : Nat} (h : ChainOk s0 (some a) (some ch)) (ha : a.wf) (haa : a.isAlt = false) (hq : q.wf)
    (hqa : q.isAlt = false) (hb : bnd s0 (len a + len q)) (t : List Nat) (np : Nat) :
    regtail ch (adr (regc (asm a none) s0)) (regc (asm a none ++ asm q none) { s0 with rest := t, npar := np }) =
      some (regc (asm (.cat a q) none) { s0 with rest := t, npar := np }) := by
  obtain ⟨A, p, hp, hpa, heq, hch⟩ := h
  have hla := asm_length ha haa
  have hlq := asm_length hq hqa
  have hlp := asm_length hp hpa
  have hlA : A.length + len p = len a := by
    have := congrArg List.length (heq none)
    simp only [List.length_append, hla, hlp] at this; omega
  obtain ⟨r0, n0, z, m⟩ := s0
  cases m with
  | none =>
    simp only [regc, regtail, Option.map, asm]
    simp [hla]
  | some m =>
    have hb' := hb m rfl
    have hch' := hch m rfl
    simp only [regc, adr]
    refine regtail_some ?_
    have := tail_asm (m := m ++ (asm a none ++ asm q none)) (pre := m ++ A) (suf := asm q none) 0 hp hpa (by rw [heq]; simp)
      (by simp [hla, hlq]; omega) (p := ch) (val := (m ++ asm a none).length) (by simp [hch']) (by simp [hla]; omega)
    rw [this]
    simp [asm, heq]

theorem branchLoop_spec {reg preg} (h : Spec (regpiece reg) (pPiece preg) flagsA (fun r => asm r none)) (hok : POkFun preg) (s0 : CS) :
    ∀ n acc chain t np, (∀ a, acc = some a → a.wf ∧ a.isAlt = false) → ChainOk s0 acc chain → 0 ∉ t → 1 ≤ np →
    match pPieces preg n acc t np with
    | none => s0.mem = none → branchLoop reg n chain (flO acc) (regc (codeO acc) { s0 with rest := t, npar := np }) = none
    | some (acc', t', np') => bnd s0 (codeO acc').length → ∃ chain', chain'.isSome = acc'.isSome ∧
        branchLoop reg n chain (flO acc) (regc (codeO acc) { s0 with rest := t, npar := np }) =
          some (chain', flO acc', regc (codeO acc') { s0 with rest := t', npar := np' }) := by
  intro n
  induction n with
  | zero => intro acc chain t np _ _ _ _; simp [pPieces, branchLoop]
  | succ n ih =>
    intro acc chain t np hacc hch h0 h1
    have hsome : chain.isSome = acc.isSome := by
      cases acc <;> cases chain <;> simp [ChainOk] at hch ⊢
    cases t with
    | nil =>
      simp only [pPieces, branchLoop, regc_rest]
      intro _; exact ⟨chain, hsome, rfl⟩
    | cons c t =>
      by_cases hc : c = 124 ∨ c = 41
      · simp only [pPieces, branchLoop, regc_rest, hc, if_true]
        intro _; exact ⟨chain, hsome, rfl⟩
      · simp only [pPieces, branchLoop, regc_rest, hc, if_false]
        cases hp : pPiece preg (c :: t) np with
        | none =>
          simp only
          intro hm
          rw [h.none (by simpa [regc_rest] using h0) (by simpa [regc_npar] using h1) (by simpa only [regc_rest, regc_npar] using hp)
            (by simp [regc, hm])]
        | some v =>
          obtain ⟨q, t1, np1⟩ := v
          obtain ⟨hqw, hqa, ht1, -, hnp1⟩ := pPiece_ok hok _ _ _ h0 h1 hp
          simp only at hqw hqa ht1 hnp1
          have hj : (joinP acc q).wf ∧ (joinP acc q).isAlt = false := by
            cases acc with
            | none => exact ⟨hqw, hqa⟩
            | some a => obtain ⟨ha, hb⟩ := hacc a rfl; exact ⟨⟨hb, hqa, ha, hqw⟩, rfl⟩
          have hj' : ∀ a, some (joinP acc q) = some a → a.wf ∧ a.isAlt = false := by intro a ha; cases ha; exact hj
          have step : bnd s0 (len (joinP acc q)) → ∃ ch', ChainOk s0 (some (joinP acc q)) (some ch') ∧
              branchLoop reg (n + 1) chain (flO acc) (regc (codeO acc) { s0 with rest := c :: t, npar := np }) =
              branchLoop reg n (some ch') (flO (some (joinP acc q))) (regc (codeO (some (joinP acc q))) { s0 with rest := t1, npar := np1 }) := by
            intro hb
            have hpc := h.some (s := regc (codeO acc) { s0 with rest := c :: t, npar := np }) (by simpa [regc_rest] using h0)
              (by simpa [regc_npar] using h1) (r := q) (t := t1) (np := np1) (by simpa only [regc_rest, regc_npar] using hp) (by
                rw [asm_length hqw hqa]
                refine bnd_regc (bnd_with (bnd_mono hb ?_) _ _)
                cases acc with
                | none => simp [codeO, joinP]
                | some a => simp [codeO, joinP, asm_length (hacc a rfl).1 (hacc a rfl).2, len])
            simp only [regc_with2, regc_regc] at hpc
            cases acc with
            | none =>
              cases chain with
              | some _ => simp at hsome
              | none =>
                refine ⟨adr (regc (codeO none) { s0 with rest := c :: t, npar := np }), ?_, ?_⟩
                · refine ⟨[], q, hqw, hqa, fun k => rfl, fun m hm => ?_⟩
                  simp [codeO, regc_nil, adr, hm]
                · simp only [branchLoop, regc_rest, hc, if_false, hpc]
                  simp [joinP, codeO, flO, flagsA, flagsB]
            | some a =>
              cases chain with
              | none => simp at hsome
              | some ch =>
                obtain ⟨haw, haa⟩ := hacc a rfl
                refine ⟨adr (regc (codeO (some a)) { s0 with rest := c :: t, npar := np }), ?_, ?_⟩
                · refine ⟨asm a (some 0), q, hqw, hqa, fun k => rfl, fun m hm => ?_⟩
                  simp [codeO, regc, adr, hm, asm_length haw haa]
                · simp only [branchLoop, regc_rest, hc, if_false, hpc]
                  have := chain_tail hch haw haa hqw hqa (by simpa [joinP, len] using hb) t1 np1
                  simp only [codeO] at this ⊢
                  have e : adr (regc (asm a none) { s0 with rest := c :: t, npar := np }) = adr (regc (asm a none) s0) := by
                    cases hm : s0.mem <;> simp [adr, regc, hm]
                  rw [e, this]
                  simp [joinP, flO, flagsA, flagsB, width, spstart]
          have hrec := fun ch' (hc' : ChainOk s0 (some (joinP acc q)) (some ch')) => ih (some (joinP acc q)) (some ch') t1 np1 hj' hc' ht1 (by omega)
          cases hpp : pPieces preg n (some (joinP acc q)) t1 np1 with
          | none =>
            simp only [hpp] at hrec ⊢
            intro hm
            obtain ⟨ch', hc', he⟩ := step (by intro m hm'; rw [hm] at hm'; cases hm')
            have := hrec ch' hc' hm
            rw [← he] at this
            simpa only [branchLoop, regc_rest, hc, if_false] using this
          | some w =>
            obtain ⟨acc', t', np'⟩ := w
            simp only [hpp] at hrec ⊢
            intro hb
            obtain ⟨k1, -, -, -, k5, k6⟩ := pPieces_ok hok _ _ _ _ _ _ _ ht1 (by omega) hj' hpp
            obtain ⟨ch', hc', he⟩ := step (bnd_mono hb (by
              cases acc' with
              | none => simp at k6
              | some a' => simpa [codeO, asm_length (k1 a' rfl).1 (k1 a' rfl).2] using k5))
            obtain ⟨chain', g1, g2⟩ := hrec ch' hc' hb
            refine ⟨chain', g1, ?_⟩
            rw [← he] at g2
            simpa only [branchLoop, regc_rest, hc, if_false] using g2

/-- The code of a branch that is still the last one. -/
def branchCode (b : Re) : List Nat := asmAlt (.last b) none none

theorem regbranch_spec {reg preg} (h : Spec (regpiece reg) (pPiece preg) flagsA (fun r => asm r none)) (hok : POkFun preg) :
    Spec (regbranch reg) (pBranch preg) flagsB branchCode := by
  intro s h0 h1
  simp only [pBranch, regbranch, regnode_eq, regc_rest]
  have := branchLoop_spec h hok (regc (node 6 0) s) (s.rest.length + 1) none none s.rest s.npar (by simp) trivial h0 h1
  have e : regc (codeO none) { regc (node 6 0) s with rest := s.rest, npar := s.npar } = regc (node 6 0) s := by
    simp only [codeO, regc_nil, regc_with2]
  rw [e] at this
  simp only [flO] at this
  cases hp : pPieces preg (s.rest.length + 1) none s.rest s.npar with
  | none =>
    simp only [hp] at this
    simp only
    intro hm
    rw [this (by simp [regc, hm])]
  | some v =>
    obtain ⟨acc, t, np⟩ := v
    simp only [hp] at this
    simp only
    intro hb
    cases acc with
    | none =>
      obtain ⟨ch, h2, h3⟩ := this (bnd_regc (bnd_mono hb (by simp [branchCode, codeO, asmAlt, asm, node])))
      cases ch with
      | some _ => simp at h2
      | none =>
        rw [h3]
        simp only [Option.getD, flO, codeO, regc_nil, regnode_eq, regc_with2, regc_regc]
        rfl
    | some a =>
      obtain ⟨ch, h2, h3⟩ := this (bnd_regc (bnd_mono hb (by simp [branchCode, codeO, asmAlt, node]; omega)))
      cases ch with
      | none => simp at h2
      | some _ =>
        rw [h3]
        simp only [Option.getD, flO, codeO, regc_with2, regc_regc]
        rfl

/-! ### Alternatives -/

theorem asmAlt_snoc {r b : Re} (hw : r.wf) (ha : r.isAlt = true) :
    asmAlt (snocAlt r b) none none = asmAlt r (some 0) none ++ branchCode b := by
  induction r with
  | last a => simp [snocAlt, asmAlt, branchCode, off]
  | alt a r _ ih => simp [snocAlt, asmAlt, ih hw.2.2.2 hw.2.1]
  | _ => simp [isAlt] at ha

theorem flags_snoc {r b : Re} (hw : r.wf) (ha : r.isAlt = true) :
    (snocAlt r b).width = (r.width && b.width) ∧ (snocAlt r b).spstart = (r.spstart || b.spstart) := by
  induction r with
  | last a => simp [snocAlt, width, spstart]
  | alt a r _ ih => simp [snocAlt, width, spstart, ih hw.2.2.2 hw.2.1, Bool.and_assoc, Bool.or_assoc]
  | _ => simp [isAlt] at ha

theorem branchCode_length {b : Re} (hb : b.wf) (hba : b.isAlt = false) : (branchCode b).length = len b + 3 :=
  asmAlt_length (r := .last b) ⟨hba, hb⟩ rfl none none

/-- What stands in front of the alternatives in the code of `reg`: nothing, or the opening node. -/
def PreOk (pre : List Nat) : Prop := pre = [] ∨ ∃ op, op ≠ 7 ∧ op ≠ 6 ∧ pre = node op 3

theorem PreOk.reach {pre : List Nat} (h : PreOk pre) (m suf : List Nat) : Reach (m ++ pre ++ suf) m.length (m ++ pre).length := by
  rcases h with rfl | ⟨op, h7, _, rfl⟩
  · exact (Reach.refl _).cast rfl (by simp)
  · exact (At_step (op := op) (d := 3) (At.mk' rfl) h7 (by omega) (by omega)).cast rfl (by simp [node])

/-- `regtail` from the first node of the expression to what follows its alternatives. -/
theorem alts_tail {pre : List Nat} (hpre : PreOk pre) {s0 : CS} {r : Re} {ret : Nat} (hw : r.wf) (ha : r.isAlt = true)
    (hret : ∀ m, s0.mem = some m → ret = m.length) (suf : List Nat) (hb : bnd s0 (pre.length + len r + suf.length)) {val : Nat}
    (hv : ∀ m, s0.mem = some m → val = m.length + pre.length + len r) :
    regtail ret val (regc (pre ++ asmAlt r none none ++ suf) s0) = some (regc (pre ++ asmAlt r (some 0) none ++ suf) s0) := by
  have hl := asmAlt_length hw ha
  obtain ⟨r0, n0, z, m⟩ := s0
  cases m with
  | none => simp [regc, regtail, hl]
  | some m =>
    have hb' := hb m rfl
    simp only [regc]
    refine regtail_some ?_
    have := tail_alt (m := m ++ (pre ++ asmAlt r none none ++ suf)) (pre := m ++ pre) (suf := suf) 0 none hw ha (by simp)
      (by simp [hl]; omega) (p := ret) (val := val)
      (by rw [hret m rfl]
          have := hpre.reach m (asmAlt r none none ++ suf)
          simpa using this)
      (by rw [hv m rfl]; simp)
    rw [this]; simp

theorem altLoop_spec {reg preg} (h : Spec (regbranch reg) (pBranch preg) flagsB branchCode) (hok : POkFun preg) (s0 : CS)
    {pre : List Nat} (hpre : PreOk pre) {ret : Nat} (hret : ∀ m, s0.mem = some m → ret = m.length) :
    ∀ n acc t np, acc.wf → acc.isAlt = true → 0 ∉ t → 1 ≤ np →
    match pAlts preg n acc t np with
    | none => s0.mem = none → altLoop reg ret n (flagsB acc) (regc (pre ++ asmAlt acc none none) { s0 with rest := t, npar := np }) = none
    | some (r, t', np') => bnd s0 (pre.length + len r) →
        altLoop reg ret n (flagsB acc) (regc (pre ++ asmAlt acc none none) { s0 with rest := t, npar := np }) =
          some (flagsB r, regc (pre ++ asmAlt r none none) { s0 with rest := t', npar := np' }) := by
  intro n
  induction n with
  | zero => intro acc t np _ _ _ _; simp [pAlts, altLoop]
  | succ n ih =>
    intro acc t np hw ha h0 h1
    by_cases hc : ∃ t1, t = 124 :: t1
    · obtain ⟨t1, rfl⟩ := hc
      simp only [List.mem_cons, not_or] at h0
      have hl := asmAlt_length hw ha
      have hS : { regc (pre ++ asmAlt acc none none) { s0 with rest := 124 :: t1, npar := np } with rest := t1 } =
          regc (pre ++ asmAlt acc none none) { s0 with rest := t1, npar := np } := by rw [regc_with]
      simp only [pAlts, altLoop, regc_rest, hS]
      cases hp : pBranch preg t1 np with
      | none =>
        simp only
        intro hm
        rw [h.none (by simpa [regc_rest] using h0.2) (by simpa [regc_npar] using h1) (by simpa only [regc_rest, regc_npar] using hp)
          (by simp [regc, hm])]
      | some v =>
        obtain ⟨b, t2, np2⟩ := v
        obtain ⟨hbw, hba, ht2, -, hnp2⟩ := pBranch_ok hok h0.2 h1 hp
        obtain ⟨k1, k2, k3⟩ := snocAlt_ok hw ha hbw hba
        have hbl := branchCode_length hbw hba
        simp only
        have step : bnd s0 (pre.length + len (snocAlt acc b)) →
            regbranch reg (regc (pre ++ asmAlt acc none none) { s0 with rest := t1, npar := np }) =
              some (adr (regc (pre ++ asmAlt acc none none) { s0 with rest := t1, npar := np }), flagsB b,
                regc (pre ++ asmAlt acc none none ++ branchCode b) { s0 with rest := t2, npar := np2 }) ∧
            regtail ret (adr (regc (pre ++ asmAlt acc none none) { s0 with rest := t1, npar := np }))
              (regc (pre ++ asmAlt acc none none ++ branchCode b) { s0 with rest := t2, npar := np2 }) =
              some (regc (pre ++ asmAlt (snocAlt acc b) none none) { s0 with rest := t2, npar := np2 }) := by
          intro hb
          constructor
          · have := h.some (s := regc (pre ++ asmAlt acc none none) { s0 with rest := t1, npar := np }) (by simpa [regc_rest] using h0.2)
              (by simpa [regc_npar] using h1) (r := b) (t := t2) (np := np2) (by simpa only [regc_rest, regc_npar] using hp)
              (bnd_regc (bnd_with (bnd_mono hb (by simp only [List.length_append, hl, hbl]; omega)) _ _))
            simpa only [regc_with2, regc_regc] using this
          · have := alts_tail hpre (s0 := { s0 with rest := t2, npar := np2 }) (ret := ret) hw ha hret (branchCode b)
              (bnd_with (bnd_mono hb (by rw [hbl]; omega)) _ _)
              (val := adr (regc (pre ++ asmAlt acc none none) { s0 with rest := t1, npar := np }))
              (by intro m hm
                  simp only at hm
                  simp [adr, regc, hm, hl]; omega)
            rw [this, asmAlt_snoc hw ha, List.append_assoc]
        have hfl : (⟨(flagsB acc).width && (flagsB b).width, false, (flagsB acc).sp || (flagsB b).sp⟩ : Flags) = flagsB (snocAlt acc b) := by
          obtain ⟨f1, f2⟩ := flags_snoc (b := b) hw ha
          simp [flagsB, f1, f2]
        have hrec := ih (snocAlt acc b) t2 np2 k1 k2 ht2 (by omega)
        cases hpp : pAlts preg n (snocAlt acc b) t2 np2 with
        | none =>
          simp only [hpp] at hrec ⊢
          intro hm
          obtain ⟨g1, g2⟩ := step (by intro m hm'; rw [hm] at hm'; cases hm')
          simp only [g1, g2, hfl]
          exact hrec hm
        | some w =>
          obtain ⟨r, t', np'⟩ := w
          simp only [hpp] at hrec ⊢
          intro hb
          obtain ⟨-, -, -, -, -, hle⟩ := pAlts_ok hok _ _ _ _ _ _ _ ht2 (by omega) k1 k2 hpp
          obtain ⟨g1, g2⟩ := step (bnd_mono hb (by omega))
          simp only [g1, g2, hfl]
          exact hrec hb
    · have e1 : pAlts preg (n + 1) acc t np = some (acc, t, np) := by
        unfold pAlts; split
        · exact absurd ⟨_, rfl⟩ hc
        · rfl
      have e2 : altLoop reg ret (n + 1) (flagsB acc) (regc (pre ++ asmAlt acc none none) { s0 with rest := t, npar := np }) =
          some (flagsB acc, regc (pre ++ asmAlt acc none none) { s0 with rest := t, npar := np }) := by
        unfold altLoop; simp only [regc_rest]; split
        · exact absurd ⟨_, rfl⟩ hc
        · rfl
      simp only [e1, e2]
      intro _; trivial

theorem optail_alts (rest : List Nat) (np z e : Nat) (he6 : e ≠ 6) : ∀ (r : Re) (pre : List Nat) (N ender : Nat),
    r.wf → r.isAlt = true → pre.length + len r + 3 < 65536 → len r + 1 ≤ N → ender = pre.length + len r →
    optailLoop ender N pre.length ⟨rest, np, z, some (pre ++ asmAlt r (some 0) none ++ node e 0)⟩ =
      some ⟨rest, np, z, some (pre ++ asmAlt r (some 0) (some 0) ++ node e 0)⟩ := by
  intro r
  induction r with
  | last a =>
    intro pre N ender hw ha hb hN he
    have hl := asm_length hw.2 hw.1
    simp only [len] at hb hN he
    obtain ⟨N, rfl⟩ : ∃ k, N = k + 2 := ⟨N - 2, by omega⟩
    have h1 : regoptail pre.length ender ⟨rest, np, z, some (pre ++ asmAlt (.last a) (some 0) none ++ node e 0)⟩ =
        some ⟨rest, np, z, some (pre ++ asmAlt (.last a) (some 0) (some 0) ++ node e 0)⟩ := by
      refine regoptail_some (d := off (some 0) (len a + 3)) (At.mk' (pre := pre) (suf := asm a none ++ node e 0) (by simp [asmAlt])) ?_
      have := tail_asm (m := pre ++ asmAlt (.last a) (some 0) none ++ node e 0) (pre := pre ++ node 6 (off (some 0) (len a + 3)))
        (suf := node e 0) 0 hw.2 hw.1 (by simp [asmAlt]) (by simp [asmAlt, hl, node]; omega) (p := pre.length + 3) (val := ender)
        (by simp [node]) (by simp [node]; omega)
      rw [this]; simp [asmAlt]
    have hat : At (pre ++ asmAlt (.last a) (some 0) (some 0) ++ node e 0) pre.length (node 6 (len a + 3)) :=
      At.mk' (suf := asm a (some 0) ++ node e 0) (by simp [asmAlt, off])
    have hn : regnext (pre ++ asmAlt (.last a) (some 0) (some 0) ++ node e 0) pre.length = some (pre.length + (len a + 3)) := by
      rw [hat.next (by omega)]; simp
    have hat2 : At (pre ++ asmAlt (.last a) (some 0) (some 0) ++ node e 0) (pre.length + (len a + 3)) (node e 0) :=
      ⟨pre ++ asmAlt (.last a) (some 0) (some 0), [], by simp, by simp [asmAlt, hl, node]⟩
    have h2 : regoptail (pre.length + (len a + 3)) ender ⟨rest, np, z, some (pre ++ asmAlt (.last a) (some 0) (some 0) ++ node e 0)⟩ =
        some ⟨rest, np, z, some (pre ++ asmAlt (.last a) (some 0) (some 0) ++ node e 0)⟩ := by
      simp only [regoptail, hat2.op, Option.some.injEq, he6, if_false]
    have hn2 : regnext (pre ++ asmAlt (.last a) (some 0) (some 0) ++ node e 0) (pre.length + (len a + 3)) = none := by
      rw [hat2.next (by omega)]; simp
    simp only [optailLoop, h1, Option.getD_some, hn, h2, hn2]
  | alt a b _ ih =>
    intro pre N ender hw ha hb hN he
    have hl := asm_length hw.2.2.1 hw.1
    have hlb := asmAlt_length hw.2.2.2 hw.2.1
    simp only [len] at hb hN he
    obtain ⟨N, rfl⟩ : ∃ k, N = k + 1 := ⟨N - 1, by omega⟩
    have e0 : pre ++ asmAlt (.alt a b) (some 0) none ++ node e 0 =
        (pre ++ node 6 (len a + 3)) ++ asm a none ++ (asmAlt b (some 0) none ++ node e 0) := by simp [asmAlt]
    have e1 : (pre ++ node 6 (len a + 3)) ++ asm a (some (len b)) ++ (asmAlt b (some 0) none ++ node e 0) =
        (pre ++ node 6 (len a + 3) ++ asm a (some (len b))) ++ asmAlt b (some 0) none ++ node e 0 := by simp
    have h1 : regoptail pre.length ender ⟨rest, np, z, some (pre ++ asmAlt (.alt a b) (some 0) none ++ node e 0)⟩ =
        some ⟨rest, np, z, some ((pre ++ node 6 (len a + 3) ++ asm a (some (len b))) ++ asmAlt b (some 0) none ++ node e 0)⟩ := by
      rw [e0, ← e1]
      refine regoptail_some (d := len a + 3) (At.mk' (pre := pre) (suf := asm a none ++ (asmAlt b (some 0) none ++ node e 0)) (by simp)) ?_
      exact tail_asm (len b) hw.2.2.1 hw.1 rfl (by simp [hl, hlb, node]; omega) (by simp [node]) (by simp [node]; omega)
    have hat : At ((pre ++ node 6 (len a + 3) ++ asm a (some (len b))) ++ asmAlt b (some 0) none ++ node e 0) pre.length (node 6 (len a + 3)) :=
      At.mk' (suf := asm a (some (len b)) ++ asmAlt b (some 0) none ++ node e 0) (by simp)
    have hn : regnext ((pre ++ node 6 (len a + 3) ++ asm a (some (len b))) ++ asmAlt b (some 0) none ++ node e 0) pre.length =
        some (pre ++ node 6 (len a + 3) ++ asm a (some (len b))).length := by
      rw [hat.next (by omega)]; simp [node, hl]
    simp only [optailLoop, h1, Option.getD_some, hn]
    rw [ih (pre ++ node 6 (len a + 3) ++ asm a (some (len b))) N ender hw.2.2.2 hw.2.1 (by simp [node, hl]; omega) (by omega)
      (by simp [node, hl]; omega)]
    simp [asmAlt]
  | _ => intro pre N ender hw ha; simp [isAlt] at ha

/-- The end of `reg`: the closing node is written and everything is tied to it. -/
theorem close_spec {pre : List Nat} (hpre : PreOk pre) {s0 : CS} {r : Re} {ret e N : Nat} (hw : r.wf) (ha : r.isAlt = true) (he6 : e ≠ 6)
    (hret : ∀ m, s0.mem = some m → ret = m.length) (hb : bnd s0 (pre.length + len r + 3))
    (hN : ∀ m, s0.mem = some m → m.length + pre.length + len r + 2 ≤ N) (hN1 : 1 ≤ N) :
    optailLoop (adr (regc (pre ++ asmAlt r none none) s0)) N ret (regc (pre ++ asmAlt r (some 0) none ++ node e 0) s0) =
      some (regc (pre ++ asmAlt r (some 0) (some 0) ++ node e 0) s0) := by
  have hl := asmAlt_length hw ha
  obtain ⟨r0, n0, z, m⟩ := s0
  cases m with
  | none =>
    obtain ⟨N, rfl⟩ : ∃ k, N = k + 1 := ⟨N - 1, by omega⟩
    simp [regc, optailLoop, hl]
  | some m =>
    have hb' := hb m rfl
    have hN' := hN m rfl
    have hr' := hret m rfl
    subst hr'
    simp only [regc, adr]
    rcases hpre with rfl | ⟨op, h7, h6, rfl⟩
    · have := optail_alts r0 n0 z e he6 r m N (m ++ ([] ++ asmAlt r none none)).length hw ha (by simp at hb'; omega) (by simp at hN'; omega)
        (by simp [hl])
      simpa using this
    · simp only [node_length] at hb' hN'
      obtain ⟨N, rfl⟩ : ∃ k, N = k + 1 := ⟨N - 1, by omega⟩
      have hat : At (m ++ (node op 3 ++ asmAlt r (some 0) none ++ node e 0)) m.length (node op 3) :=
        At.mk' (suf := asmAlt r (some 0) none ++ node e 0) (by simp)
      have h1 : regoptail m.length (m ++ (node op 3 ++ asmAlt r none none)).length
          ⟨r0, n0, z, some (m ++ (node op 3 ++ asmAlt r (some 0) none ++ node e 0))⟩ =
          some ⟨r0, n0, z, some (m ++ (node op 3 ++ asmAlt r (some 0) none ++ node e 0))⟩ := by
        simp only [regoptail, hat.op, Option.some.injEq, h6, if_false]
      have hn : regnext (m ++ (node op 3 ++ asmAlt r (some 0) none ++ node e 0)) m.length = some (m.length + 3) := by
        rw [hat.next (by omega)]; simp [h7]
      simp only [optailLoop, h1, Option.getD_some, hn]
      have := optail_alts r0 n0 z e he6 r (m ++ node op 3) N (m ++ (node op 3 ++ asmAlt r none none)).length hw ha
        (by simp [node]; omega) (by omega) (by simp [hl, node]; omega)
      simpa [node] using this

theorem pGroup_not_simple (n : Nat) : ∀ t np r t' np', pGroup n t np = some (r, t', np') → r.simple = false := by
  intro t np r t' np' h
  cases n with
  | zero => simp [pGroup] at h
  | succ n =>
    unfold pGroup at h
    split at h
    · simp at h
    · split at h
      · simp at h; obtain ⟨rfl, _⟩ := h; rfl
      · simp at h

theorem bnd_none {s : CS} (h : s.mem = none) (L : Nat) : bnd s L := by intro m hm; rw [h] at hm; cases hm

theorem reg_spec (n : Nat) : Spec (reg n true) (pGroup n) flagsB (fun r => asm r none) := by
  induction n with
  | zero => intro s _ _; simp [pGroup, reg]
  | succ n ih =>
    have hok := pGroup_ok n
    have hp := regpiece_spec (regatom_spec ih hok (pGroup_not_simple n)) (pAtom_ok hok)
    have hbr := regbranch_spec hp hok
    intro s h0 h1
    simp only [pGroup, reg, true_and, if_true, regnode_eq]
    by_cases h10 : 10 ≤ s.npar
    · simp [h10]
    · simp only [h10, if_false]
      generalize hno : s.npar = no
      -- the branch
      have hS : ∀ c : List Nat, ∀ t np', { regc c { s with npar := no + 1 } with rest := t, npar := np' } = regc c { s with rest := t, npar := np' } := by
        intro c t np'; rw [regc_with2]
      cases hb1 : pBranch (pGroup n) s.rest (no + 1) with
      | none =>
        simp only [pAll, hb1]
        intro hm
        rw [hbr.none (by simpa [regc_rest] using h0) (by simp [regc_npar]) (by simpa only [regc_rest, regc_npar] using hb1) (by simp [regc, hm])]
      | some v =>
        obtain ⟨b, t1, np1⟩ := v
        obtain ⟨hbw, hba, ht1, -, hnp1⟩ := pBranch_ok hok h0 (by omega) hb1
        have hbl := branchCode_length hbw hba
        have hlw : (Re.last b).wf := ⟨hba, hbw⟩
        have hpre : PreOk (node (20 + no) 3) := Or.inr ⟨20 + no, by omega, by omega, rfl⟩
        have hret : ∀ t np' m, ({ s with rest := t, npar := np' } : CS).mem = some m → adr s = m.length := by
          intro t np' m hm; simp only at hm; simp [adr, hm]
        have hadr : ∀ t np', adr ({ s with rest := t, npar := np' } : CS) = adr s := fun t np' => rfl
        have step1 : bnd s (3 + (len b + 3)) →
            regbranch (reg n true) (regc (node (20 + no) 0) { s with npar := no + 1 }) =
              some (adr (regc (node (20 + no) 0) { s with npar := no + 1 }), flagsB b,
                regc (node (20 + no) 0 ++ branchCode b) { s with rest := t1, npar := np1 }) ∧
            regtail (adr s) (adr (regc (node (20 + no) 0) { s with npar := no + 1 }))
              (regc (node (20 + no) 0 ++ branchCode b) { s with rest := t1, npar := np1 }) =
              some (regc (node (20 + no) 3 ++ asmAlt (.last b) none none) { s with rest := t1, npar := np1 }) := by
          intro hb
          constructor
          · have := hbr.some (s := regc (node (20 + no) 0) { s with npar := no + 1 }) (by simpa [regc_rest] using h0)
              (by simp [regc_npar]) (r := b) (t := t1) (np := np1) (by simpa only [regc_rest, regc_npar] using hb1)
              (bnd_regc (by rw [hbl]; exact hb))
            simpa only [hS, regc_regc] using this
          · cases hm : s.mem with
            | none => simp [regc, hm, regtail, branchCode, node]
            | some m =>
              obtain ⟨rest, np, z, mm⟩ := s
              simp only at hm; subst hm
              simp only [regc, adr]
              refine regtail_some ?_
              have := tail_node (m := m ++ (node (20 + no) 0 ++ branchCode b)) (A := m) (op := 20 + no) (B := branchCode b) (p := m.length)
                (val := (m ++ node (20 + no) 0).length) (d := 3) (by simp) (.refl _) (by simp [node]; omega)
              rw [this]; simp [branchCode]
        simp only [pAll, hb1]
        -- further alternatives
        have hal := altLoop_spec hbr hok s hpre (ret := adr s) (by intro m hm; simp [adr, hm]) (t1.length + 1) (.last b) t1 np1 hlw rfl ht1 (by omega)
        cases hp2 : pAlts (pGroup n) (t1.length + 1) (.last b) t1 np1 with
        | none =>
          simp only [hp2] at hal ⊢
          intro hm
          obtain ⟨g1, g2⟩ := step1 (bnd_none hm _)
          have hal2 : altLoop (reg n true) (adr s) (t1.length + 1) { width := (flagsB b).width, sp := (flagsB b).sp }
                (regc (node (20 + no) 3 ++ asmAlt (.last b) none none) { s with rest := t1, npar := np1 }) = none := hal hm
          have hadr' : adr { rest := s.rest, npar := no + 1, size := s.size, mem := s.mem } = adr s := rfl
          simp only [g1, hadr', g2, regc_rest, hal2]
        | some w =>
          obtain ⟨r, t2, np2⟩ := w
          obtain ⟨hrw, hra, ht2, -, -, hle⟩ := pAlts_ok hok _ _ _ _ _ _ _ ht1 (by omega) hlw rfl hp2
          simp only [len] at hle
          simp only [hp2] at hal
          have ready : bnd s (3 + len r + 3) → _ ∧ _ ∧ _ ∧ _ ∧ _ := fun hb =>
            have hal' := hal (bnd_mono hb (by simp only [node_length]; omega))
            have hal2 : altLoop (reg n true) (adr s) (t1.length + 1) { width := (flagsB b).width, sp := (flagsB b).sp }
                (regc (node (20 + no) 3 ++ asmAlt (.last b) none none) { s with rest := t1, npar := np1 }) =
                some (flagsB r, regc (node (20 + no) 3 ++ asmAlt r none none) { s with rest := t2, npar := np2 }) := hal'
            have h5 := alts_tail hpre (s0 := { s with rest := t2, npar := np2 }) (ret := adr s) hrw hra (hret _ _) (node (30 + no) 0)
              (bnd_with (bnd_mono hb (by simp only [node_length]; omega)) _ _)
              (val := adr (regc (node (20 + no) 3 ++ asmAlt r none none) { s with rest := t2, npar := np2 }))
              (by intro m hm
                  simp only at hm
                  simp [adr, regc, hm, asmAlt_length hrw hra, node]; omega)
            have h6 := close_spec hpre (s0 := { s with rest := t2, npar := np2 }) (ret := adr s) (e := 30 + no)
              (N := ((regc (node (20 + no) 3 ++ asmAlt r (some 0) none ++ node (30 + no) 0) { s with rest := t2, npar := np2 }).mem.getD []).length + 1)
              hrw hra (by omega) (hret _ _) (bnd_with (bnd_mono hb (by simp only [node_length]; omega)) _ _)
              (by intro m hm
                  simp only at hm
                  simp [regc, hm, asmAlt_length hrw hra, node]; omega) (by omega)
            ⟨(step1 (bnd_mono hb (by omega))).1, (step1 (bnd_mono hb (by omega))).2, hal2, h5, h6⟩
          have hadr' : adr { rest := s.rest, npar := no + 1, size := s.size, mem := s.mem } = adr s := rfl
          by_cases hc : ∃ t3, t2 = 41 :: t3
          · obtain ⟨t3, rfl⟩ := hc
            simp only
            intro hb
            obtain ⟨g1, g2, g3, g4, g5⟩ := ready (bnd_mono hb (by simp [asm, node, asmAlt_length hrw hra]; omega))
            simp only [g1, hadr', g2, regc_rest, g3, regc_regc, g4, g5, regc_with]
            simp only [flagsB, width, spstart, asm, off]
          · have fin : s.mem = none → reg (n + 1) true s = none := by
              intro hm
              obtain ⟨g1, g2, g3, g4, g5⟩ := ready (bnd_none hm _)
              simp only [reg, true_and, if_true, regnode_eq, hno]
              rw [if_neg (by omega)]
              simp only [g1, hadr', g2, regc_rest, g3, regc_regc, g4, g5]
              split
              · exact absurd ⟨_, rfl⟩ hc
              · rfl
            simp only [reg, true_and, if_true, regnode_eq, hno] at fin
            rw [if_neg (by omega)] at fin
            split
            · exact fin
            · rename_i heq
              exfalso
              split at heq
              · rename_i heq2; cases heq2; exact absurd ⟨_, rfl⟩ hc
              · cases heq

end Vital.Regex
