import Verif.Config.ParserText
/-
  Calling parse_config several times on one parser (C30).
-/
namespace Vital.Parser
open Vital Vital.Config Vital.Expand Vital.Sys

theorem lines_exist (n : Nat) (ls : List Str) : ∃ ds, Lines n ls ds := lines_total _ n ls (Nat.le_refl _)

/-- What matters of a state for the bookkeeping of files. -/
structure Same (s s' : PS) : Prop where
  tok : s'.tok = []
  count : s'.fileCount = s.fileCount
  incl : s'.incl = s.incl
  err : s.parseErr = true → s'.parseErr = true

theorem assign_same (w : World) (file : Str) (rel ro : Bool) (lhs rhs : Str) (s : PS) (rest : List Str) (ht : s.tok = []) :
    (∃ s', assignStep w file rel ro lhs rhs s rest = .more s' rest ∧ Same s s' ∧ s'.parseErr = s.parseErr) ∨
    ∃ s' e, assignStep w file rel ro lhs rhs s rest = .throw s' e ∧ s'.fileCount = s.fileCount ∧ (s.parseErr = true → s'.parseErr = true) := by
  unfold assignStep
  simp only
  split
  · exact .inr ⟨_, _, rfl, rfl, id⟩
  · exact .inl ⟨_, rfl, ⟨ht, rfl, rfl, id⟩, rfl⟩

theorem include_same (w : World) (s : PS) (rest : List Str) :
    (∃ s' path line, includeStep w s rest = .incl s' rest path line ∧ Same s s') ∨
    ∃ s' e, includeStep w s rest = .throw s' e ∧ s'.fileCount = s.fileCount ∧ (s.parseErr = true → s'.parseErr = true) := by
  unfold includeStep
  simp only
  split
  · exact .inr ⟨_, _, rfl, rfl, id⟩
  · split
    · exact .inr ⟨_, _, rfl, rfl, id⟩
    · split
      · exact .inr ⟨_, _, rfl, rfl, id⟩
      · exact .inl ⟨_, _, _, rfl, rfl, rfl, rfl, id⟩

/-- One iteration, as far as files and the error latch are concerned. -/
theorem item_same (w : World) (file : Str) (s : PS) (ht : s.tok = []) (rest : List Str) (ds : List (Nat × Directive)) (hl : Lines s.line rest ds) :
    (ds = [] ∧ ∃ s', item w file s rest = .eof s' ∧ Same s s') ∨
    (∃ d ds', ds = d :: ds' ∧ ∃ s' rest', Lines s'.line rest' ds' ∧ item w file s rest = .more s' rest' ∧ Same s s' ∧ (d.2 = .bad → s'.parseErr = true)) ∨
    (∃ d ds', ds = d :: ds' ∧ d.2 ≠ .bad ∧ ∃ s' rest' path line, Lines line rest' ds' ∧ item w file s rest = .incl s' rest' path line ∧ Same s s') ∨
    ∃ s' e, item w file s rest = .throw s' e ∧ s'.fileCount = s.fileCount ∧ (s.parseErr = true → s'.parseErr = true) := by
  cases ds with
  | nil => exact .inl ⟨rfl, _, item_eof ht hl, ht, rfl, rfl, id⟩
  | cons d ds =>
    obtain ⟨n, d⟩ := d
    right
    cases d with
    | bad =>
      obtain ⟨rest', hl', hi⟩ := item_bad (w := w) (file := file) ht hl
      exact .inl ⟨_, ds, rfl, _, rest', hl', hi, ⟨rfl, rfl, rfl, fun _ => rfl⟩, fun _ => rfl⟩
    | entry rel key flags rhs =>
      obtain ⟨rest', hl', hi⟩ := item_entry_line (w := w) (file := file) ht hl
      have ha := assign_same w file rel (flags.any (IsRO ·)) key rhs { s with line := n, tok := [], parseErr := s.parseErr || flags.any (¬ IsRO ·) } rest' rfl
      have hline : ∀ s', assignStep w file rel (flags.any (IsRO ·)) key rhs { s with line := n, tok := [], parseErr := s.parseErr || flags.any (¬ IsRO ·) } rest' = .more s' rest' →
          s'.line = n := by
        intro s' h
        unfold assignStep at h
        simp only at h
        split at h
        · cases h
        · cases h; rfl
      rcases ha with ⟨s', h1, h2, h3⟩ | ⟨s', e, h1, h2, h3⟩
      · refine .inl ⟨_, ds, rfl, s', rest', by rw [hline s' h1]; exact hl', hi.trans h1, ⟨h2.tok, h2.count, h2.incl, fun hp => h2.err (by simp [hp])⟩, fun h => nomatch h⟩
      · exact .inr (.inr ⟨s', e, hi.trans h1, h2, fun hp => h3 (by simp [hp])⟩)
    | sym name flags rhs =>
      obtain ⟨rest', hl', hi⟩ := item_sym_line (w := w) (file := file) ht hl
      exact .inl ⟨_, ds, rfl, _, rest', hl', hi, ⟨rfl, rfl, rfl, fun hp => by simp [hp]⟩, fun h => nomatch h⟩
    | block name =>
      obtain ⟨rest', hl', hi⟩ := item_block_line (w := w) (file := file) ht hl
      exact .inl ⟨_, ds, rfl, _, rest', hl', hi, ⟨rfl, rfl, rfl, id⟩, fun h => nomatch h⟩
    | endblock =>
      obtain ⟨rest', hl', hi⟩ := item_end_line (w := w) (file := file) ht hl
      cases hb : s.blocks with
      | nil => rw [hb] at hi; exact .inr (.inr ⟨_, _, hi, rfl, id⟩)
      | cons b bs => rw [hb] at hi; exact .inl ⟨_, ds, rfl, _, rest', hl', hi, ⟨rfl, rfl, rfl, id⟩, fun h => nomatch h⟩
    | incl name =>
      obtain ⟨rest', hl', hi⟩ := item_incl_line (w := w) (file := file) ht hl
      rcases include_same w { s with line := n, tok := name } rest' with ⟨s', path, line, h1, h2⟩ | ⟨s', e, h1, h2, h3⟩
      · have hline : line = n := by
          unfold includeStep at h1
          simp only at h1
          split at h1
          · cases h1
          · split at h1
            · cases h1
            · split at h1
              · cases h1
              · cases h1; rfl
        refine .inr (.inl ⟨_, ds, rfl, nofun, s', rest', path, line, by rw [hline]; exact hl', hi.trans h1, ⟨h2.tok, h2.count, h2.incl, h2.err⟩⟩)
      · exact .inr (.inr ⟨s', e, hi.trans h1, h2, h3⟩)

/-- File bookkeeping of `process_file`. -/
theorem loop_count {w : World} : ∀ (n : Nat) (file : Str) (s : PS) (rest : List Str) (s' : PS) (o : Except PExc Unit), s.tok = [] →
    1 ≤ s.fileCount → loopF n w file s rest = some (s', o) →
    (s.parseErr = true → s'.parseErr = true) ∧
    (o = .ok () → s'.tok = [] ∧ s'.fileCount = s.fileCount - 1 ∧ s'.incl = s.incl.drop 1) ∧
    (∀ x, o = .error x → s.fileCount ≤ s'.fileCount ∨ (s.fileCount = 1 ∧ s'.fileCount = 0 ∧ s'.parseErr = true ∧ x = .notParsed file)) := by
  intro n
  induction n with
  | zero => intro file s rest s' o _ _ h; simp [loopF] at h
  | succ n ih =>
    intro file s rest s' o ht hc h
    obtain ⟨ds, hl⟩ := lines_exist s.line rest
    unfold loopF at h
    rcases item_same w file s ht rest ds hl with ⟨_, s1, hi, hs⟩ | ⟨d, ds', _, s1, rest', _, hi, hs, _⟩ | ⟨d, ds', _, _, s1, rest', path, line, _, hi, hs⟩ | ⟨s1, e, hi, h1, h2⟩
    · rw [hi] at h
      simp only [Option.some.injEq] at h
      have h1 : finish s1 file = (s', o) := h
      unfold finish at h1
      simp only [hs.count] at h1
      by_cases h0 : s.fileCount - 1 = 0
      · rw [if_pos h0] at h1
        by_cases hp : (s1.parseErr || !s1.blocks.isEmpty) = true
        · rw [if_pos hp] at h1
          simp only [Prod.mk.injEq] at h1
          obtain ⟨rfl, rfl⟩ := h1
          refine ⟨fun hq => by simp [hs.err hq], nofun, fun x hx => ?_⟩
          cases hx
          exact .inr ⟨by omega, h0, hp, rfl⟩
        · rw [if_neg hp] at h1
          simp only [Prod.mk.injEq] at h1
          obtain ⟨rfl, rfl⟩ := h1
          exact ⟨fun hq => by simp [hs.err hq], fun _ => ⟨hs.tok, rfl, by simp [hs.incl]⟩, nofun⟩
      · rw [if_neg h0] at h1
        simp only [Prod.mk.injEq] at h1
        obtain ⟨rfl, rfl⟩ := h1
        exact ⟨fun hq => hs.err hq, fun _ => ⟨hs.tok, rfl, by simp [hs.incl]⟩, nofun⟩
    · rw [hi] at h
      have := ih file s1 rest' s' o hs.tok (by rw [hs.count]; exact hc) h
      rw [hs.count, hs.incl] at this
      exact ⟨fun hp => this.1 (hs.err hp), this.2.1, this.2.2⟩
    · rw [hi] at h
      simp only at h
      cases hcon : w.content path with
      | none =>
        simp only [openFile, hcon, Option.some.injEq, Prod.mk.injEq] at h
        obtain ⟨rfl, rfl⟩ := h
        exact ⟨fun hp => hs.err hp, nofun, fun x _ => .inl (by simp [hs.count])⟩
      | some c =>
        simp only [openFile, hcon] at h
        split at h
        · cases h
        · rename_i s2 e hin
          simp only [Option.some.injEq, Prod.mk.injEq] at h
          obtain ⟨rfl, rfl⟩ := h
          obtain ⟨g1, _, g3⟩ := ih path _ _ s2 _ rfl (by simp only [hs.count]; omega) hin
          refine ⟨fun hp => g1 (hs.err hp), nofun, fun x hx => ?_⟩
          rcases g3 _ rfl with g | ⟨g, _⟩ <;> simp only [hs.count] at g
          · left; omega
          · omega
        · rename_i s2 hin
          obtain ⟨g1, g2, _⟩ := ih path _ _ s2 _ rfl (by simp only [hs.count]; omega) hin
          obtain ⟨g4, g5, g6⟩ := g2 rfl
          simp only [hs.count, hs.incl, List.drop_succ_cons, List.drop_zero] at g5 g6
          have := ih file { s2 with line := line } rest' s' o g4 (by simp only [g5]; omega) h
          simp only [g5, g6] at this
          refine ⟨fun hp => this.1 (g1 (hs.err hp)), fun ho => ?_, fun x hx => ?_⟩
          · obtain ⟨a, b, c⟩ := this.2.1 ho
            exact ⟨a, by omega, c⟩
          · rcases this.2.2 x hx with a | ⟨a, b⟩
            · left; omega
            · right; exact ⟨by omega, b⟩
    · rw [hi] at h
      simp only [Option.some.injEq, Prod.mk.injEq] at h
      obtain ⟨rfl, rfl⟩ := h
      exact ⟨h2, nofun, fun x _ => .inl (by omega)⟩

/-- With the file counter right, an error on a line, or one latched before, is reported. -/
theorem loop_bad {w : World} : ∀ (n : Nat) (file : Str) (s : PS) (rest : List Str) (ds : List (Nat × Directive)) (s' : PS) (o : Except PExc Unit),
    s.tok = [] → s.fileCount = 1 → Lines s.line rest ds → (s.parseErr = true ∨ ∃ m, (m, .bad) ∈ ds) →
    loopF n w file s rest = some (s', o) → o ≠ .ok () := by
  intro n
  induction n with
  | zero => intro file s rest ds s' o _ _ _ _ h; simp [loopF] at h
  | succ n ih =>
    intro file s rest ds s' o ht hc hl hb h
    unfold loopF at h
    rcases item_same w file s ht rest ds hl with ⟨rfl, s1, hi, hs⟩ | ⟨d, ds', rfl, s1, rest', hl', hi, hs, hbad⟩ | ⟨d, ds', rfl, hnb, s1, rest', path, line, hl', hi, hs⟩ | ⟨s1, e, hi, h1, h2⟩
    · rw [hi] at h
      simp only [Option.some.injEq] at h
      have h1 : finish s1 file = (s', o) := h
      have hp : s.parseErr = true := by
        rcases hb with h | ⟨m, hm⟩
        · exact h
        · simp at hm
      unfold finish at h1
      simp only [hs.count, hc, hs.err hp] at h1
      rw [if_pos (by decide)] at h1
      simp only [Bool.true_or, if_true, Prod.mk.injEq] at h1
      rw [← h1.2]; exact nofun
    · rw [hi] at h
      refine ih file s1 rest' ds' s' o hs.tok (by rw [hs.count]; exact hc) hl' ?_ h
      rcases hb with hp | ⟨m, hm⟩
      · exact .inl (hs.err hp)
      · simp only [List.mem_cons] at hm
        rcases hm with rfl | hm
        · exact .inl (hbad rfl)
        · exact .inr ⟨m, hm⟩
    · rw [hi] at h
      simp only at h
      cases hcon : w.content path with
      | none =>
        simp only [openFile, hcon, Option.some.injEq, Prod.mk.injEq] at h
        rw [← h.2]; exact nofun
      | some c =>
        simp only [openFile, hcon] at h
        split at h
        · cases h
        · simp only [Option.some.injEq, Prod.mk.injEq] at h
          rw [← h.2]; exact nofun
        · rename_i s2 hin
          obtain ⟨g1, g2, _⟩ := loop_count n path _ _ s2 _ rfl (by simp only [hs.count]; omega) hin
          obtain ⟨g4, g5, g6⟩ := g2 rfl
          simp only [hs.count, hs.incl, List.drop_succ_cons, List.drop_zero] at g5 g6
          refine ih file { s2 with line := line } rest' ds' s' o g4 (by simp only [g5]; omega) hl' ?_ h
          rcases hb with hp | ⟨m, hm⟩
          · exact .inl (g1 (hs.err hp))
          · simp only [List.mem_cons] at hm
            rcases hm with rfl | hm
            · exact absurd rfl hnb
            · exact .inr ⟨m, hm⟩
    · rw [hi] at h
      simp only [Option.some.injEq, Prod.mk.injEq] at h
      rw [← h.2]; exact nofun

/-- With the file counter too high, the end of a file never throws. -/
theorem loop_lost {w : World} : ∀ (file : Str) (ds : List (Nat × Directive)) (s : PS) (rest : List Str), s.tok = [] → 2 ≤ s.fileCount →
    Lines s.line rest ds → (∀ d ∈ ds, d.2 = .bad) →
    ∃ n s', loopF n w file s rest = some (s', .ok ()) ∧ s'.heap = s.heap ∧ s'.cfg = s.cfg := by
  intro file ds
  induction ds with
  | nil =>
    intro s rest ht hc hl _
    refine ⟨1, { s with line := s.line + rest.length, fileCount := s.fileCount - 1, incl := s.incl.drop 1 }, ?_, rfl, rfl⟩
    unfold loopF
    rw [item_eof ht hl]
    simp only [finish]
    rw [if_neg (by omega)]
  | cons d ds ih =>
    intro s rest ht hc hl hb
    obtain ⟨m, d⟩ := d
    have hd : d = .bad := hb (m, d) (by simp)
    subst hd
    obtain ⟨rest', hl', hi⟩ := item_bad (w := w) (file := file) ht hl
    obtain ⟨n, s', h1, h2, h3⟩ := ih { s with line := m, tok := [], parseErr := true } rest' rfl hc hl' (fun x hx => hb x (by simp [hx]))
    refine ⟨n + 1, s', ?_, h2, h3⟩
    unfold loopF
    rw [hi]
    exact h1

/-! ### Histories -/

/-- States of a parser after the given calls of `parse_config` (file and outcome). -/
inductive After (w : World) (h : Heap) (search : List Str) : List (Str × Except PExc Unit) → PS → Prop where
  | new : After w h search [] (fresh h search)
  | call {cs s file s' o} : After w h search cs s → Parses w s file s' o → After w h search (cs ++ [(file, o)]) s'

/-- A call that returned or could not open its file. -/
def NoTrace (w : World) (c : Str × Except PExc Unit) : Prop := c.2 = .ok () ∨ w.content c.1 = none

theorem after_count {w : World} {h : Heap} {search : List Str} {cs : List (Str × Except PExc Unit)} {s : PS} (ha : After w h search cs s) :
    0 ≤ s.fileCount ∧ ((∀ c ∈ cs, NoTrace w c) → s.fileCount = 0 ∧ s.incl = []) := by
  induction ha with
  | new => exact ⟨Int.le_refl 0, fun _ => ⟨rfl, rfl⟩⟩
  | @call cs s file s' o _ hp ih =>
    obtain ⟨n, hn⟩ := hp
    unfold parseF openFile at hn
    cases hc : w.content file with
    | none =>
      simp only [hc, Option.some.injEq, Prod.mk.injEq] at hn
      obtain ⟨rfl, rfl⟩ := hn
      exact ⟨ih.1, fun hh => ih.2 (fun c hm => hh c (by simp [hm]))⟩
    | some c =>
      simp only [hc] at hn
      have h0 := ih.1
      obtain ⟨_, g2, g3⟩ := loop_count n file _ _ s' o rfl (by simp only; omega) hn
      constructor
      · cases o with
        | ok _ => have := (g2 rfl).2.1; simp only at this; omega
        | error x =>
          rcases g3 x rfl with g | ⟨_, g, _⟩
          · simp only at g; omega
          · omega
      · intro hh
        obtain ⟨i1, i2⟩ := ih.2 (fun c hm => hh c (by simp [hm]))
        have : o = .ok () := by
          rcases hh (file, o) (by simp) with g | g
          · exact g
          · simp [hc] at g
        obtain ⟨_, b, c⟩ := g2 this
        simp only [i1, i2] at b c
        exact ⟨by omega, by simpa using c⟩

/-- If every earlier call returned (or could not open its file), a syntax error is reported.  Missing: calls
    after one that threw while reading (see `C30_refuted`, `C30_errors_lost`). -/
theorem C30_reuse_partial {w : World} {h : Heap} {search : List Str} {cs : List (Str × Except PExc Unit)} {s : PS}
    (ha : After w h search cs s) (hcs : ∀ c ∈ cs, c.2 = .ok () ∨ w.content c.1 = none) {file c : Str} {ls : List Str}
    {ds : List (Nat × Directive)} (hc : w.content file = some c) (ht : TextIs c ls) (hl : Lines 0 ls ds) {n : Nat} (hb : (n, .bad) ∈ ds)
    {s' : PS} {o : Except PExc Unit} (hp : Parses w s file s' o) : o ≠ .ok () := by
  obtain ⟨i1, _⟩ := (after_count ha).2 hcs
  obtain ⟨m, hm⟩ := hp
  unfold parseF openFile at hm
  simp only [hc, fileLines_of ht] at hm
  exact loop_bad m file _ _ ds s' o rfl (by simp [i1]) hl (.inr ⟨n, hb⟩) hm

/-- After a call that threw while reading a file (any exception except the error report at the end), a file
    full of syntax errors is accepted. -/
theorem C30_errors_lost {w : World} {h : Heap} {search : List Str} {cs : List (Str × Except PExc Unit)} {s0 s : PS}
    (ha : After w h search cs s0) {file1 : Str} {x : PExc} (hc1 : w.content file1 ≠ none) (hp : Parses w s0 file1 s (.error x))
    (hx : x ≠ .notParsed file1) {file c : Str} {ls : List Str}
    {ds : List (Nat × Directive)} (hc : w.content file = some c) (ht : TextIs c ls) (hl : Lines 0 ls ds) (hb : ∀ d ∈ ds, d.2 = .bad) :
    ∃ s', Parses w s file s' (.ok ()) ∧ s'.heap = s.heap ∧ s'.cfg = s.cfg := by
  have h0 := (after_count ha).1
  have h1 : 1 ≤ s.fileCount := by
    obtain ⟨n, hn⟩ := hp
    unfold parseF openFile at hn
    cases hcc : w.content file1 with
    | none => exact absurd hcc hc1
    | some c =>
      simp only [hcc] at hn
      obtain ⟨_, _, g3⟩ := loop_count n file1 _ _ s _ rfl (by simp only; omega) hn
      rcases g3 x rfl with g | ⟨_, _, _, g⟩
      · simp only at g; omega
      · exact absurd g hx
  obtain ⟨n, s', g1, g2, g3⟩ := loop_lost (w := w) file ds
    { s with tok := [], line := 0, fileCount := s.fileCount + 1, incl := file :: s.incl } ls rfl (by simp only; omega) hl hb
  refine ⟨s', ⟨n, ?_⟩, g2, g3⟩
  unfold parseF openFile
  simp only [hc, fileLines_of ht]
  exact g1

/-! ### Successful calls add up -/

/-- A parser between successful calls whose config shows `e`. -/
structure Idle (search : List Str) (s : PS) (e : Env) : Prop where
  incl : s.incl = []
  blocks : s.blocks = []
  context : s.context = []
  count : s.fileCount = 0
  err : s.parseErr = false
  search : s.search = search
  cfg : CfgIs s.heap s.cfg e
  sym : ∀ k, s.symtab.find? k = e.sym k

theorem idle_parse {w : World} {search : List Str} {s : PS} {e : Env} (hi : Idle search s e) {file c : Str} {ls : List Str}
    {ds : List (Nat × Directive)} (hc : w.content file = some c) (ht : TextIs c ls) (hl : Lines 0 ls ds) {s' : PS} {o : Except PExc Unit}
    (hp : Parses w s file s' o) :
    ∃ tr r e', Exec w search [file] [] ds e tr r e' ∧ o = r.outcome file tr ∧ s'.cfg = s.cfg ∧ CfgIs s'.heap s'.cfg e' ∧
      (o = .ok () → Idle search s' e') := by
  obtain ⟨n, hn⟩ := hp
  unfold parseF openFile at hn
  simp only [hc, fileLines_of ht] at hn
  have hs : Sim search { s with tok := [], line := 0, fileCount := s.fileCount + 1, incl := file :: s.incl } [file] [] e :=
    ⟨rfl, by simp [hi.incl], by simp only [hi.blocks]; exact .nil, hi.context, by simp [hi.count], hi.search, hi.cfg, hi.sym⟩
  obtain ⟨tr, r, e', hx⟩ := exec_total (described w) n file [] [] _ ls e ds _ hn hs hl
  refine ⟨tr, r, e', hx, ?_⟩
  have := exec_sim hx file [] rfl _ ls hs hl
  cases r with
  | thrown x =>
    obtain ⟨m, s1, h1, h2, h3⟩ := this
    have hd := loopF_det hn h1
    simp only [Prod.mk.injEq] at hd
    obtain ⟨rfl, rfl⟩ := hd
    exact ⟨rfl, h2, h3, nofun⟩
  | done st' =>
    obtain ⟨s1, rest1, h1, h2, h3, h4, h5⟩ := this
    simp only [hi.err, Bool.false_or] at h5
    have hcnt : s1.fileCount - 1 = 0 := by rw [h3.count]; simp
    have hfin : ∃ s'', loopF 1 w file s1 rest1 = some (s'', (Res.done st').outcome file tr) ∧ s''.cfg = s1.cfg ∧ s''.heap = s1.heap ∧
        ((Res.done st').outcome file tr = .ok () → Idle search s'' e') := by
      unfold loopF
      rw [item_eof h3.tok h2]
      simp only [finish, hcnt, if_true, h5, Res.outcome]
      have hb := h3.blocks
      have hcon := h3.context
      have hin := h3.incl
      have hcf := h3.cfg
      have hsy := h3.sym
      have hse := h3.search
      clear h1 h2 h3 h4 h5 hx hn
      revert hb
      cases hbs : s1.blocks with
      | nil =>
        intro hb; cases hb
        cases hany : tr.any Stmt.isError
        · exact ⟨_, rfl, rfl, rfl, fun _ => ⟨by simp [hin], rfl, hcon, rfl, rfl, hse, hcf, hsy⟩⟩
        · exact ⟨_, rfl, rfl, rfl, by simp⟩
      | cons bb bs =>
        intro hb
        cases hb
        cases hany : tr.any Stmt.isError <;> exact ⟨_, rfl, rfl, rfl, by simp⟩
    obtain ⟨s'', hf, hc1, hc2, hc3⟩ := hfin
    obtain ⟨m, hm⟩ := h1.loop hf
    have hd := loopF_det hn hm
    simp only [Prod.mk.injEq] at hd
    obtain ⟨rfl, ho⟩ := hd
    exact ⟨ho, hc1.trans h4, by rw [hc1, hc2]; exact h3.cfg, fun h => hc3 (by rw [← ho]; exact h)⟩

/-- A call that read its file to the end and reported errors makes every later call throw, whatever its file says. -/
theorem C30_errors_stick {w : World} {h : Heap} (hr : Reachable h) {search : List Str} {file1 c1 : Str} {ls1 : List Str} {ds1 : List (Nat × Directive)}
    (hc1 : w.content file1 = some c1) (ht1 : TextIs c1 ls1) (hl1 : Lines 0 ls1 ds1) {tr : List Stmt} {st : List Str} {e1 : Env}
    (hx : Exec w search [file1] [] ds1 Env.empty tr (.done st) e1) (hbad : st ≠ [] ∨ tr.any Stmt.isError = true) {s : PS} {o1 : Except PExc Unit}
    (hp : Parses w (fresh h search) file1 s o1) {file c : Str}
    (hc : w.content file = some c) {s' : PS} {o : Except PExc Unit} (hp2 : Parses w s file s' o) : o ≠ .ok () := by
  have he : s.parseErr = true ∧ s.fileCount = 0 := by
    obtain ⟨n, hn⟩ := hp
    unfold parseF openFile at hn
    simp only [hc1, fileLines_of ht1] at hn
    obtain ⟨s1, rest1, h1, h2, h3, h4, h5⟩ := exec_sim hx file1 [] rfl
      { fresh h search with tok := [], line := 0, fileCount := (fresh h search).fileCount + 1, incl := file1 :: (fresh h search).incl } ls1
      ⟨rfl, rfl, .nil, rfl, rfl, rfl, fresh_cfg hr.wf search, fun _ => rfl⟩ hl1
    have hcnt : s1.fileCount - 1 = 0 := by rw [h3.count]; simp
    have herr : (s1.parseErr || !s1.blocks.isEmpty) = true := by
      rcases hbad with hb | hb
      · have := h3.blocks
        revert this
        cases s1.blocks with
        | nil => intro h; cases h; exact absurd rfl hb
        | cons => simp
      · rw [h5, hb]; simp
    have hfin : loopF 1 w file1 s1 rest1 = some ({ s1 with line := s1.line + rest1.length, fileCount := 0, incl := s1.incl.drop 1, blocks := [], parseErr := true }, .error (.notParsed file1)) := by
      unfold loopF
      rw [item_eof h3.tok h2]
      simp only [finish, hcnt, if_true, herr]
    obtain ⟨m, hm⟩ := h1.loop hfin
    have hd := loopF_det hn hm
    simp only [Prod.mk.injEq] at hd
    rw [hd.1]
    exact ⟨rfl, rfl⟩
  obtain ⟨m, hm⟩ := hp2
  unfold parseF openFile at hm
  simp only [hc] at hm
  obtain ⟨ds, hl⟩ := lines_exist 0 (fileLines c)
  exact loop_bad m file { s with tok := [], line := 0, fileCount := s.fileCount + 1, incl := file :: s.incl } _ ds s' o rfl
    (by simp only [he.2]; rfl) hl (.inl he.1) hm

/-- The config after reading the given files one after another. -/
inductive ReadAll (w : World) (search : List Str) : Env → List Str → Env → Prop where
  | nil {e} : ReadAll w search e [] e
  | cons {e file c ls ds tr e1 files e'} : w.content file = some c → TextIs c ls → Lines 0 ls ds → Exec w search [file] [] ds e tr (.done []) e1 →
      ReadAll w search e1 files e' → ReadAll w search e (file :: files) e'

theorem ReadAll.snoc {w : World} {search : List Str} {e e1 e' : Env} {files : List Str} (h : ReadAll w search e files e1) {file c : Str}
    {ls : List Str} {ds : List (Nat × Directive)} {tr : List Stmt} (hc : w.content file = some c) (ht : TextIs c ls) (hl : Lines 0 ls ds)
    (hx : Exec w search [file] [] ds e1 tr (.done []) e') : ReadAll w search e (files ++ [file]) e' := by
  induction h with
  | nil => exact .cons hc ht hl hx .nil
  | cons a b c d _ ih => exact .cons a b c d (ih hx)

/-- Successful calls add up: the config shows what the files mean when read one after another. -/
theorem C30_successful_calls {w : World} {h : Heap} (hr : Reachable h) {search : List Str} {cs : List (Str × Except PExc Unit)} {s : PS}
    (ha : After w h search cs s) (hcs : ∀ c ∈ cs, c.2 = .ok ()) :
    ∃ e, ReadAll w search Env.empty (cs.map Prod.fst) e ∧ Shows s.heap s.cfg e ∧ s.cfg = h.length := by
  have : ∃ e, ReadAll w search Env.empty (cs.map Prod.fst) e ∧ Idle search s e ∧ s.cfg = h.length := by
    induction ha with
    | new => exact ⟨Env.empty, .nil, ⟨rfl, rfl, rfl, rfl, rfl, rfl, fresh_cfg hr.wf search, fun _ => rfl⟩, rfl⟩
    | @call cs s file s' o _ hp ih =>
      obtain ⟨e, h1, h2, h3⟩ := ih (fun c hm => hcs c (by simp [hm]))
      have ho : o = .ok () := hcs (file, o) (by simp)
      subst ho
      cases hc : w.content file with
      | none =>
        obtain ⟨n, hn⟩ := hp
        unfold parseF openFile at hn
        simp [hc] at hn
      | some c =>
        obtain ⟨ls, ds, ht, hl⟩ := C20_every_text c
        obtain ⟨tr, r, e', g1, g2, g3, g4, g5⟩ := idle_parse h2 hc ht hl hp
        refine ⟨e', ?_, g5 rfl, g3.trans h3⟩
        cases r with
        | thrown x => cases g2
        | done st =>
          simp only [Res.outcome] at g2
          by_cases hst : st = [] ∧ tr.any Stmt.isError = false
          · rw [hst.1] at g1
            simp only [List.map_append, List.map_cons, List.map_nil]
            exact h1.snoc hc ht hl g1
          · rw [if_neg hst] at g2; cases g2
  obtain ⟨e, h1, h2, h3⟩ := this
  exact ⟨e, h1, h2.cfg.shows, h3⟩

/-! ### Examples -/

def reuseWorld : World :=
  { content := fun f =>
      if f = c!"/bad.cfg" then some (c!"oops !\n") else if f = c!"/throws.cfg" then some (c!"abc = 1\ninclude /none.cfg\n")
      else if f = c!"/one.cfg" then some (c!"one = 1\nsym := 2\n") else if f = c!"/two.cfg" then some (c!"two = $CONFIG{one}$LOCAL{sym}\n") else none
    readable := fun f => f ≠ c!"/none.cfg" }

theorem throws_some : (parseF 9 reuseWorld (fresh [] []) (c!"/throws.cfg")).isSome = true := by decide +kernel

theorem throws_parses : ∃ s, Parses reuseWorld (fresh [] []) (c!"/throws.cfg") s (.error (.notFound (c!"/none.cfg"))) := by
  refine ⟨((parseF 9 reuseWorld (fresh [] []) (c!"/throws.cfg")).get throws_some).1, ?_⟩
  have h := parses_get throws_some
  rwa [show ((parseF 9 reuseWorld (fresh [] []) (c!"/throws.cfg")).get throws_some).2 = .error (.notFound (c!"/none.cfg")) by decide +kernel] at h

theorem bad_lines : Lines 0 (fileLines (c!"oops !\n")) [(1, .bad)] := lines_iff.2 (by decide +kernel)

/-- After a failed call a file with a syntax error is accepted. -/
theorem C30_refuted : ¬ ∀ (w : World) (h : Heap) (search : List Str) (cs : List (Str × Except PExc Unit)) (s : PS), After w h search cs s →
    ∀ (file c : Str) (ls : List Str) (ds : List (Nat × Directive)) (n : Nat), w.content file = some c → TextIs c ls → Lines 0 ls ds → (n, .bad) ∈ ds →
    ∀ (s' : PS) (o : Except PExc Unit), Parses w s file s' o → o ≠ .ok () := by
  intro hall
  obtain ⟨s, hp⟩ := throws_parses
  have hc : reuseWorld.content (c!"/bad.cfg") = some (c!"oops !\n") := by decide +kernel
  obtain ⟨s', h1, _⟩ := C30_errors_lost (After.new (w := reuseWorld) (h := []) (search := [])) (x := .notFound (c!"/none.cfg"))
    (by decide +kernel) hp nofun hc (text_iff.2 rfl) bad_lines (by simp)
  exact hall reuseWorld [] [] _ s (.call .new hp) _ _ _ _ 1 hc (text_iff.2 rfl) bad_lines (by simp) s' _ h1 rfl

theorem one_some : (parseF 9 reuseWorld (fresh [] []) (c!"/one.cfg")).isSome = true := by decide +kernel

theorem two_some : (parseF 9 reuseWorld ((parseF 9 reuseWorld (fresh [] []) (c!"/one.cfg")).get one_some).1 (c!"/two.cfg")).isSome = true := by
  decide +kernel

/-- Two successful calls. -/
example : ∃ cs s, After reuseWorld [] [] cs s ∧ (∀ c ∈ cs, c.2 = .ok ()) ∧ cs.length = 2 ∧ getValue s.heap s.cfg (c!"two") = .ok (c!"12") := by
  refine ⟨_, _, .call (.call .new (parses_get one_some)) (parses_get two_some), ?_⟩
  decide +kernel

theorem bad_some : (parseF 9 reuseWorld (fresh [] []) (c!"/bad.cfg")).isSome = true := by decide +kernel

/-- The hypotheses of `C30_errors_stick` are met. -/
example : ∃ s o, Parses reuseWorld (fresh [] []) (c!"/bad.cfg") s o ∧ reuseWorld.content (c!"/bad.cfg") = some (c!"oops !\n") ∧
    Exec reuseWorld [] [c!"/bad.cfg"] [] [(1, .bad)] Env.empty [.error (c!"/bad.cfg") 1] (.done []) Env.empty :=
  ⟨_, _, parses_get bad_some, by decide +kernel, .bad .nil⟩

end Vital.Parser
