import Verif.Config.ParserExec
import Verif.Config.ParserRead
/-
  Properties of reading config files (config_parser::parse_config on a fresh parser).

  Reading guide.  `Lines 0 ls ds`: the lines `ls` of a file say `ds` (ParserSpec.lean).  `Exec` is the
  meaning of a file: the trace `tr` lists, in reading order, the definitions made and the syntax errors met,
  through includes.  `Shows h b e`: all queries of config block `b` answer as `e` says.  The config block the
  parser fills is `s'.cfg`.
-/
namespace Vital.Parser
open Vital Vital.Config Vital.Expand Vital.Sys

/-! ### A concrete world -/

def demoMain : Str := c!"# demo\nblock alpha\n  key[RO] = 1   # one\n  include /inc.cfg\nendblock # alpha\n\nbeta:x = <$CONFIG{alpha:key}>\nrelativepath loc = data\nbeta:x = 7 $LOCAL{sym}\n"
def demoInc : Str := c!"sub = two\nsym := 5\noops !"
def demoWorld : World :=
  { content := fun f => if f = c!"/d/main.cfg" then some demoMain else if f = c!"/inc.cfg" then some demoInc else none
    readable := fun f => f = c!"/d/main.cfg" || f = c!"/inc.cfg" }

def demoLines : List (Nat × Directive) :=
  [(2, .block (c!"alpha")), (3, .entry false (c!"key") [c!"RO"] (c!"1")), (4, .incl (c!"/inc.cfg")), (5, .endblock),
   (7, .entry false (c!"beta:x") [] (c!"<$CONFIG{alpha:key}>")), (8, .entry true (c!"loc") [] (c!"data")),
   (9, .entry false (c!"beta:x") [] (c!"7 $LOCAL{sym}"))]

def demoIncLines : List (Nat × Directive) :=
  [(1, .entry false (c!"sub") [] (c!"two")), (2, .sym (c!"sym") [] (c!"5")), (3, .bad)]

theorem demo_text : TextIs demoMain (fileLines demoMain) := text_iff.2 rfl

theorem demo_lines : Lines 0 (fileLines demoMain) demoLines := lines_iff.2 (by decide +kernel)

theorem demoInc_lines : Lines 0 (fileLines demoInc) demoIncLines := lines_iff.2 (by decide +kernel)

theorem nil_reachable : Reachable [] := ⟨[], rfl⟩

theorem parses_get {n : Nat} {w : World} {s : PS} {f : Str} (h : (parseF n w s f).isSome = true) :
    Parses w s f ((parseF n w s f).get h).1 ((parseF n w s f).get h).2 := ⟨n, (Option.some_get h).symm⟩

theorem demo_some : (parseF 20 demoWorld (fresh [] []) (c!"/d/main.cfg")).isSome = true := by decide +kernel

theorem demo_parses : ∃ s' o, Parses demoWorld (fresh [] []) (c!"/d/main.cfg") s' o ∧ o = .error (.notParsed (c!"/d/main.cfg")) ∧
    getValue s'.heap s'.cfg (c!"beta:x") = .ok (c!"7 5") ∧ getValue s'.heap s'.cfg (c!"loc") = .ok (c!"/d/data") ∧
    getValue s'.heap s'.cfg (c!"alpha:sub") = .ok (c!"two") ∧ isReadOnly s'.heap s'.cfg (c!"alpha:key") = .ok true ∧
    getLocation s'.heap s'.cfg (c!"beta:x") = .ok (some (c!"/d/main.cfg", 9)) := by
  refine ⟨_, _, parses_get demo_some, ?_⟩
  decide +kernel

/-! ### Consequences of the specification -/

theorem flagErrors_env (file : Str) (n : Nat) (flags : List Str) (e : Env) :
    (flagErrors file n flags).foldl Env.apply e = e := by
  unfold flagErrors
  induction flags.filter (fun f => decide (¬ IsRO f)) with
  | nil => rfl
  | cons f fs ih => exact ih

/-- The final config is what the definitions of the trace make of the initial one. -/
theorem exec_env {w : World} {search inc st : List Str} {ds : List (Nat × Directive)} {e : Env} {tr : List Stmt}
    {r : Res} {e' : Env} (h : Exec w search inc st ds e tr r e') : e' = tr.foldl Env.apply e := by
  induction h with
  | nil => rfl
  | bad _ ih => exact ih
  | entry _ _ _ _ ih => rw [List.foldl_append, flagErrors_env]; exact ih
  | protectedEntry => rw [flagErrors_env]
  | sym _ _ ih => rw [List.foldl_append, flagErrors_env]; exact ih
  | block _ ih => exact ih
  | endblock _ ih => exact ih
  | strayEnd => rfl
  | incl _ _ _ _ _ _ _ _ ih1 ih2 => rw [List.foldl_append, ← ih1]; exact ih2
  | inclThrows _ _ _ _ _ _ _ ih => exact ih
  | inclMissing => rfl
  | inclNoFile => rfl

/-- Line `n` of file `file` says `d`. -/
def LineOf (w : World) (file : Str) (n : Nat) (d : Directive) : Prop :=
  ∃ c ls ds, w.content file = some c ∧ TextIs c ls ∧ Lines 0 ls ds ∧ (n, d) ∈ ds

/-- A definition in a trace comes from a line, its value is the text of the line with tokens replaced by
    what was defined before. -/
def Justified (w : World) (e : Env) : Stmt → Prop
  | .set f n k v ro => ∃ st rel key flags rhs x, LineOf w f n (.entry rel key flags rhs) ∧ k = blockPrefix st ++ key ∧
      RhsText w e f rel rhs x ∧ StripsTo x v ∧ ro = flags.any (IsRO ·) ∧ e.ro k = false
  | .sym name v => ∃ f n flags rhs, LineOf w f n (.sym name flags rhs) ∧ Expands (symbols w e) rhs v
  | .error f n => ∃ d, LineOf w f n d ∧ (d = .bad ∨ ∃ rel key flags rhs, (d = .entry rel key flags rhs ∨ d = .sym key flags rhs) ∧
      ∃ fl ∈ flags, ¬ IsRO fl)

theorem split_append {α : Type} {l1 l2 t1 : List α} {x : α} {t2 : List α} (h : l1 ++ l2 = t1 ++ x :: t2) :
    (∃ u, l1 = t1 ++ x :: u ∧ t2 = u ++ l2) ∨ ∃ u, t1 = l1 ++ u ∧ l2 = u ++ x :: t2 := by
  rcases List.append_eq_append_iff.1 h with ⟨a, h1, h2⟩ | ⟨a, h1, h2⟩
  · exact .inr ⟨a, h1, h2⟩
  · cases a with
    | nil => exact .inr ⟨[], by simpa using h1.symm, by simpa using h2.symm⟩
    | cons y a =>
      simp only [List.cons_append, List.cons.injEq] at h2
      exact .inl ⟨a, by rw [h1, h2.1], h2.2⟩

theorem mem_flagErrors {file : Str} {n : Nat} {flags : List Str} {x : Stmt} (h : x ∈ flagErrors file n flags) :
    x = .error file n ∧ ∃ fl ∈ flags, ¬ IsRO fl := by
  simp only [flagErrors, List.mem_map, List.mem_filter, decide_eq_true_eq] at h
  obtain ⟨f, ⟨h1, h2⟩, h3⟩ := h
  exact ⟨h3.symm, f, h1, h2⟩

/-- Splitting the trace of a line with flags. -/
theorem flag_split {file : Str} {n : Nat} {flags : List Str} {y : Stmt} {tr t1 : List Stmt} {x : Stmt} {t2 : List Stmt}
    (h : flagErrors file n flags ++ y :: tr = t1 ++ x :: t2) :
    (x = .error file n ∧ ∃ fl ∈ flags, ¬ IsRO fl) ∨ (t1 = flagErrors file n flags ∧ x = y) ∨
      ∃ u, t1 = flagErrors file n flags ++ y :: u ∧ tr = u ++ x :: t2 := by
  rcases split_append h with ⟨u, h1, _⟩ | ⟨u, h1, h2⟩
  · exact .inl (mem_flagErrors (by rw [h1]; simp))
  · cases u with
    | nil => simp at h1 h2; exact .inr (.inl ⟨h1, h2.1.symm⟩)
    | cons a u =>
      simp only [List.cons_append, List.cons.injEq] at h2
      exact .inr (.inr ⟨u, by rw [h1, h2.1], h2.2⟩)

theorem exec_justified {w : World} {search inc st : List Str} {ds : List (Nat × Directive)} {e : Env} {tr : List Stmt}
    {r : Res} {e' : Env} (h : Exec w search inc st ds e tr r e') :
    ∀ file inc0, inc = file :: inc0 → (∀ n d, (n, d) ∈ ds → LineOf w file n d) →
    ∀ t1 x t2, tr = t1 ++ x :: t2 → Justified w (t1.foldl Env.apply e) x := by
  induction h with
  | nil => intro file inc0 _ _ t1 x t2 h; simp at h
  | @bad file inc st n ds e tr r e' _ ih =>
    intro file' inc0 hi hd t1 x t2 h
    cases hi
    cases t1 with
    | nil => simp at h; rw [← h.1]; exact ⟨_, hd n .bad (by simp), .inl rfl⟩
    | cons a t1 =>
      simp only [List.cons_append, List.cons.injEq] at h
      rw [List.foldl_cons, ← h.1]
      exact ih _ _ rfl (fun m d hm => hd m d (by simp [hm])) t1 x t2 h.2
  | @entry file inc st n rel key flags rhs ds e y v tr r e' hr hv hro _ ih =>
    intro file' inc0 hi hd t1 x t2 h
    cases hi
    have hl := hd n (.entry rel key flags rhs) (by simp)
    rcases flag_split h with ⟨rfl, hf⟩ | ⟨rfl, rfl⟩ | ⟨u, rfl, h2⟩
    · exact ⟨_, hl, .inr ⟨_, _, _, _, .inl rfl, hf⟩⟩
    · rw [flagErrors_env]
      exact ⟨st, rel, key, flags, rhs, y, hl, rfl, hr, hv, rfl, hro⟩
    · rw [List.foldl_append, flagErrors_env]
      exact ih _ _ rfl (fun m d hm => hd m d (by simp [hm])) u x t2 h2
  | @protectedEntry file inc st n rel key flags rhs ds e y hr hro =>
    intro file' inc0 hi hd t1 x t2 h
    cases hi
    obtain ⟨rfl, hf⟩ := mem_flagErrors (x := x) (by rw [h]; simp)
    exact ⟨_, hd n (.entry rel key flags rhs) (by simp), .inr ⟨_, _, _, _, .inl rfl, hf⟩⟩
  | @sym file inc st n name flags rhs ds e y tr r e' hx _ ih =>
    intro file' inc0 hi hd t1 x t2 h
    cases hi
    have hl := hd n (.sym name flags rhs) (by simp)
    rcases flag_split h with ⟨rfl, hf⟩ | ⟨rfl, rfl⟩ | ⟨u, rfl, h2⟩
    · exact ⟨_, hl, .inr ⟨false, _, _, _, .inr rfl, hf⟩⟩
    · rw [flagErrors_env]
      exact ⟨file, n, flags, rhs, hl, hx⟩
    · rw [List.foldl_append, flagErrors_env]
      exact ih _ _ rfl (fun m d hm => hd m d (by simp [hm])) u x t2 h2
  | block _ ih => intro file inc0 hi hd; exact ih file inc0 hi (fun m d hm => hd m d (by simp [hm]))
  | endblock _ ih => intro file inc0 hi hd; exact ih file inc0 hi (fun m d hm => hd m d (by simp [hm]))
  | strayEnd => intro file inc0 _ _ t1 x t2 h; simp at h
  | @incl inc st n name y path c ls ds' ds e u1 st1 e1 u2 r e2 _ _ _ hc ht hl hx1 _ ih1 ih2 =>
    intro file inc0 hi hd t1 x t2 h
    rcases split_append h with ⟨u, h1, _⟩ | ⟨u, h1, h2⟩
    · exact ih1 path inc rfl (fun m d hm => ⟨c, ls, ds', hc, ht, hl, hm⟩) t1 x u h1
    · rw [h1, List.foldl_append, ← exec_env hx1]
      exact ih2 file inc0 hi (fun m d hm => hd m d (by simp [hm])) u x t2 h2
  | @inclThrows inc st n name y path c ls ds' ds e u1 q e1 _ _ _ hc ht hl hx1 ih1 =>
    intro file inc0 hi hd t1 x t2 h
    exact ih1 path inc rfl (fun m d hm => ⟨c, ls, ds', hc, ht, hl, hm⟩) t1 x t2 h
  | inclMissing => intro file inc0 _ _ t1 x t2 h; simp at h
  | inclNoFile => intro file inc0 _ _ t1 x t2 h; simp at h

/-- Reading a file piece by piece. -/
theorem exec_split {w : World} {search inc : List Str} {ds1 ds2 : List (Nat × Directive)} :
    ∀ {st : List Str} {e : Env} {tr : List Stmt} {r : Res} {e' : Env}, Exec w search inc st (ds1 ++ ds2) e tr r e' →
    (∃ x, r = .thrown x) ∨ ∃ t1 st1 e1 t2, Exec w search inc st ds1 e t1 (.done st1) e1 ∧
      Exec w search inc st1 ds2 e1 t2 r e' ∧ tr = t1 ++ t2 := by
  induction ds1 with
  | nil => intro st e tr r e' h; exact .inr ⟨[], st, e, tr, .nil, h, rfl⟩
  | cons d ds1 ih =>
    intro st e tr r e' h
    rw [List.cons_append] at h
    cases h with
    | bad h =>
      rcases ih h with h | ⟨t1, st1, e1, t2, h1, h2, rfl⟩
      · exact .inl h
      · exact .inr ⟨_, st1, e1, t2, .bad h1, h2, by simp⟩
    | entry a b c h =>
      rcases ih h with h | ⟨t1, st1, e1, t2, h1, h2, rfl⟩
      · exact .inl h
      · exact .inr ⟨_, st1, e1, t2, .entry a b c h1, h2, by simp⟩
    | protectedEntry => exact .inl ⟨_, rfl⟩
    | sym a h =>
      rcases ih h with h | ⟨t1, st1, e1, t2, h1, h2, rfl⟩
      · exact .inl h
      · exact .inr ⟨_, st1, e1, t2, .sym a h1, h2, by simp⟩
    | block h =>
      rcases ih h with h | ⟨t1, st1, e1, t2, h1, h2, rfl⟩
      · exact .inl h
      · exact .inr ⟨_, st1, e1, t2, .block h1, h2, rfl⟩
    | endblock h =>
      rcases ih h with h | ⟨t1, st1, e1, t2, h1, h2, rfl⟩
      · exact .inl h
      · exact .inr ⟨_, st1, e1, t2, .endblock h1, h2, rfl⟩
    | strayEnd => exact .inl ⟨_, rfl⟩
    | incl a b c d f g k h =>
      rcases ih h with h | ⟨t1, st1, e1, t2, h1, h2, rfl⟩
      · exact .inl h
      · exact .inr ⟨_, st1, e1, t2, .incl a b c d f g k h1, h2, by simp⟩
    | inclThrows => exact .inl ⟨_, rfl⟩
    | inclMissing => exact .inl ⟨_, rfl⟩
    | inclNoFile => exact .inl ⟨_, rfl⟩

theorem not_ok_of_error {file : Str} {tr : List Stmt} {r : Res} {f : Str} {n : Nat} (h : .error f n ∈ tr) :
    r.outcome file tr ≠ .ok () := by
  cases r with
  | thrown e => simp [Res.outcome]
  | done st =>
    have : tr.any Stmt.isError = true := List.any_eq_true.2 ⟨_, h, rfl⟩
    simp [Res.outcome, this]

/-! ### C20: the meaning of a file, blocks -/

/-- Every text consists of lines that say something. -/
theorem C20_every_text (c : Str) : ∃ ls ds, TextIs c ls ∧ Lines 0 ls ds := by
  obtain ⟨ls, hls⟩ := text_total _ c (Nat.le_refl _)
  obtain ⟨ds, hds⟩ := lines_total _ 0 ls (Nat.le_refl _)
  exact ⟨ls, ds, hls, hds⟩

/-- The meaning of a text is unique. -/
theorem C20_one_meaning {c : Str} {ls ls' : List Str} {ds ds' : List (Nat × Directive)} (h1 : TextIs c ls) (h2 : Lines 0 ls ds)
    (h3 : TextIs c ls') (h4 : Lines 0 ls' ds') : ls = ls' ∧ ds = ds' := by
  have : ls = ls' := by rw [text_iff.1 h1, text_iff.1 h3]
  subst this
  exact ⟨rfl, by rw [lines_iff.1 h2, lines_iff.1 h4]⟩

/-- Parsing does what the text of the files means. -/
theorem C20_document {w : World} {search : List Str} {file c : Str} {ls : List Str} {ds : List (Nat × Directive)}
    {tr : List Stmt} {r : Res} {e' : Env} (hc : w.content file = some c) (ht : TextIs c ls) (hl : Lines 0 ls ds)
    (hx : Exec w search [file] [] ds Env.empty tr r e') {h : Heap} (hr : Reachable h) :
    ∃ s', Parses w (fresh h search) file s' (r.outcome file tr) ∧ Shows s'.heap s'.cfg e' := by
  obtain ⟨s', h1, _, h3⟩ := parse_main hc ht hl hx hr.wf
  exact ⟨s', h1, h3.shows⟩

/-- Conversely, whatever a parse ends with is what the text means. -/
theorem C20_every_parse {w : World} {search : List Str} {file c : Str} {ls : List Str}
    {ds : List (Nat × Directive)} (hc : w.content file = some c) (ht : TextIs c ls) (hl : Lines 0 ls ds)
    {h : Heap} (hr : Reachable h) {s' : PS} {o : Except PExc Unit} (hp : Parses w (fresh h search) file s' o) :
    ∃ tr r e', Exec w search [file] [] ds Env.empty tr r e' ∧ o = r.outcome file tr ∧ Shows s'.heap s'.cfg e' := by
  obtain ⟨tr, r, e', h1, h2, _, h4⟩ := parse_described (described w) hc ht hl hr.wf hp
  exact ⟨tr, r, e', h1, h2, h4.shows⟩

/-- The hypotheses are met by the demo world. -/
theorem demo_exec : ∃ tr r e', Exec demoWorld [] [c!"/d/main.cfg"] [] demoLines Env.empty tr r e' ∧
    e'.val (c!"alpha:sub") = some (c!"two") := by
  obtain ⟨s', o, hp, _, _, _, hv, _⟩ := demo_parses
  obtain ⟨tr, r, e', h1, _, h3⟩ := C20_every_parse (c := demoMain) rfl demo_text demo_lines nil_reachable hp
  refine ⟨tr, r, e', h1, ?_⟩
  have := (h3 (c!"alpha:sub")).1
  rw [hv] at this
  revert this
  cases e'.val (c!"alpha:sub") <;> intro this <;> cases this
  rfl

def Directive.isIncl : Directive → Bool
  | .incl _ => true
  | _ => false

/-- The blocks open after the lines `ds`, when `st` are open before; `none` for an `endblock` without
    block. -/
def openBlocks : List Str → List (Nat × Directive) → Option (List Str)
  | st, [] => some st
  | st, (_, .block n) :: ds => openBlocks (n :: st) ds
  | _ :: st, (_, .endblock) :: ds => openBlocks st ds
  | [], (_, .endblock) :: _ => none
  | st, _ :: ds => openBlocks st ds

/-- A balanced piece of text leaves the open blocks as they were. -/
theorem C20_endblock_restores {body : List (Nat × Directive)} (h : openBlocks [] body = some []) (st : List Str) :
    openBlocks st body = some st := by
  have gen : ∀ (ds : List (Nat × Directive)) (a b : List Str), openBlocks a ds = some b →
      openBlocks (a ++ st) ds = some (b ++ st) := by
    intro ds
    induction ds with
    | nil => intro a b h; simp [openBlocks] at h ⊢; rw [h]
    | cons d ds ih =>
      intro a b h
      obtain ⟨n, d⟩ := d
      cases d with
      | block name => exact ih (name :: a) b h
      | endblock =>
        cases a with
        | nil => simp [openBlocks] at h
        | cons x a => exact ih a b h
      | entry => simp only [openBlocks] at h ⊢; exact ih a b h
      | sym => simp only [openBlocks] at h ⊢; exact ih a b h
      | incl => simp only [openBlocks] at h ⊢; exact ih a b h
      | bad => simp only [openBlocks] at h ⊢; exact ih a b h
  exact gen body [] [] h

theorem exec_blocks {w : World} {search inc st : List Str} {ds : List (Nat × Directive)} {e : Env} {tr : List Stmt}
    {r : Res} {e' : Env} (h : Exec w search inc st ds e tr r e') (hi : ∀ n d, (n, d) ∈ ds → d.isIncl = false) :
    ∀ st', r = .done st' → openBlocks st ds = some st' := by
  induction h with
  | nil => intro st' h; cases h; rfl
  | bad _ ih => intro st' h; simp only [openBlocks]; exact ih (fun n d hm => hi n d (by simp [hm])) st' h
  | entry _ _ _ _ ih => intro st' h; simp only [openBlocks]; exact ih (fun n d hm => hi n d (by simp [hm])) st' h
  | protectedEntry => intro st' h; cases h
  | sym _ _ ih => intro st' h; simp only [openBlocks]; exact ih (fun n d hm => hi n d (by simp [hm])) st' h
  | block _ ih => intro st' h; simp only [openBlocks]; exact ih (fun n d hm => hi n d (by simp [hm])) st' h
  | endblock _ ih => intro st' h; simp only [openBlocks]; exact ih (fun n d hm => hi n d (by simp [hm])) st' h
  | strayEnd => intro st' h; cases h
  | @incl inc st n name _ _ _ _ _ ds => exact absurd (hi n (.incl name) (by simp)) (by simp [Directive.isIncl])
  | inclThrows => intro st' h; cases h
  | inclMissing => intro st' h; cases h
  | inclNoFile => intro st' h; cases h

/-- Badly nested blocks make `parse_config` throw: an `endblock` too many (`openBlocks` is `none`) or a
    block left open. -/
theorem C20_bad_nesting {w : World} {search : List Str} {file c : Str} {ls : List Str}
    {ds : List (Nat × Directive)} (hc : w.content file = some c) (ht : TextIs c ls) (hl : Lines 0 ls ds)
    (hi : ∀ n d, (n, d) ∈ ds → d.isIncl = false) (hb : openBlocks [] ds ≠ some [])
    {h : Heap} (hr : Reachable h) {s' : PS} {o : Except PExc Unit} (hp : Parses w (fresh h search) file s' o) :
    o ≠ .ok () := by
  obtain ⟨tr, r, e', h1, h2, _⟩ := C20_every_parse hc ht hl hr hp
  rw [h2]
  cases r with
  | thrown x => simp [Res.outcome]
  | done st =>
    have := exec_blocks h1 hi st rfl
    have hs : st ≠ [] := by rintro rfl; exact hb this
    simp [Res.outcome, hs]

theorem val_mono : ∀ (t : List Stmt) (e : Env) (k : Str), (e.val k).isSome = true →
    ((t.foldl Env.apply e).val k).isSome = true := by
  intro t
  induction t with
  | nil => intro e k h; exact h
  | cons a t ih =>
    intro e k h
    apply ih
    cases a with
    | set f n k' v r => simp only [Env.apply]; split <;> simp [h]
    | sym k' v => exact h
    | error f n => exact h

/-- An entry line that is followed to the end of a parse without exception defines the key qualified by the
    names of the blocks open at that line. -/
theorem C20_nested_key {w : World} {search : List Str} {file c : Str} {ls : List Str}
    {pre post : List (Nat × Directive)} {n : Nat} {rel : Bool} {key : Str} {flags : List Str} {rhs : Str}
    (hc : w.content file = some c) (ht : TextIs c ls)
    (hl : Lines 0 ls (pre ++ (n, .entry rel key flags rhs) :: post))
    (hi : ∀ n d, (n, d) ∈ pre → d.isIncl = false)
    {h : Heap} (hr : Reachable h) {s' : PS} (hp : Parses w (fresh h search) file s' (.ok ())) :
    ∃ st, openBlocks [] pre = some st ∧ hasValue s'.heap s'.cfg (blockPrefix st ++ key) = .ok true := by
  obtain ⟨tr, r, e', h1, h2, h3⟩ := C20_every_parse hc ht hl hr hp
  rcases exec_split h1 with ⟨x, rfl⟩ | ⟨t1, st1, e1, t2, g1, g2, rfl⟩
  · simp [Res.outcome] at h2
  · refine ⟨st1, exec_blocks g1 hi st1 rfl, ?_⟩
    rw [(h3 _).2.1]
    congr 1
    cases g2 with
    | entry _ _ _ g =>
      rw [exec_env g]
      apply val_mono
      simp [Env.apply]
    | protectedEntry => simp [Res.outcome] at h2

example : openBlocks [] [(1, .block (c!"one")), (2, .block (c!"two")), (3, .bad), (4, .endblock), (5, .block (c!"six"))] =
    some [c!"six", c!"one"] ∧ blockPrefix [c!"six", c!"one"] = c!"one:six:" := by decide

/-! ### C21: syntax errors are reported -/

/-- Every error met while reading, in whichever file, makes `parse_config` throw. -/
theorem C21_error_read {w : World} {search : List Str} {file c : Str} {ls : List Str}
    {ds : List (Nat × Directive)} (hc : w.content file = some c) (ht : TextIs c ls) (hl : Lines 0 ls ds)
    {h : Heap} (hr : Reachable h) {s' : PS} {o : Except PExc Unit} (hp : Parses w (fresh h search) file s' o) :
    ∃ tr r e', Exec w search [file] [] ds Env.empty tr r e' ∧ Shows s'.heap s'.cfg e' ∧
      ∀ f n, .error f n ∈ tr → o ≠ .ok () := by
  obtain ⟨tr, r, e', h1, h2, h3⟩ := C20_every_parse hc ht hl hr hp
  refine ⟨tr, r, e', h1, h3, fun f n hm => ?_⟩
  rw [h2]
  exact not_ok_of_error hm

/-- A line with a syntax error in the main file makes `parse_config` throw. -/
theorem C21_bad_line {w : World} {search : List Str} {file c : Str} {ls : List Str}
    {ds : List (Nat × Directive)} (hc : w.content file = some c) (ht : TextIs c ls) (hl : Lines 0 ls ds)
    {n : Nat} (hb : (n, .bad) ∈ ds) {h : Heap} (hr : Reachable h) {s' : PS} {o : Except PExc Unit}
    (hp : Parses w (fresh h search) file s' o) : o ≠ .ok () := by
  obtain ⟨tr, r, e', h1, h2, _⟩ := C20_every_parse hc ht hl hr hp
  rw [h2]
  obtain ⟨a, b, rfl⟩ := List.append_of_mem hb
  rcases exec_split h1 with ⟨x, rfl⟩ | ⟨t1, st1, e1, t2, g1, g2, rfl⟩
  · simp [Res.outcome]
  · cases g2 with
    | bad g => exact not_ok_of_error (f := file) (n := n) (by simp)

/-- An unknown flag is a syntax error. -/
theorem C21_bad_flag {w : World} {search : List Str} {file c : Str} {ls : List Str}
    {ds : List (Nat × Directive)} (hc : w.content file = some c) (ht : TextIs c ls) (hl : Lines 0 ls ds)
    {n : Nat} {rel : Bool} {key rhs : Str} {flags : List Str} {fl : Str}
    (hb : (n, .entry rel key flags rhs) ∈ ds ∨ (n, .sym key flags rhs) ∈ ds) (hfl : fl ∈ flags) (hro : ¬ IsRO fl)
    {h : Heap} (hr : Reachable h) {s' : PS} {o : Except PExc Unit}
    (hp : Parses w (fresh h search) file s' o) : o ≠ .ok () := by
  obtain ⟨tr, r, e', h1, h2, _⟩ := C20_every_parse hc ht hl hr hp
  rw [h2]
  have hfe : .error file n ∈ flagErrors file n flags := by
    unfold flagErrors
    exact List.mem_map.2 ⟨fl, List.mem_filter.2 ⟨hfl, by simp [hro]⟩, rfl⟩
  rcases hb with hb | hb <;> obtain ⟨a, b, rfl⟩ := List.append_of_mem hb <;>
    rcases exec_split h1 with ⟨x, rfl⟩ | ⟨t1, st1, e1, t2, g1, g2, rfl⟩
  · simp [Res.outcome]
  · cases g2 with
    | entry _ _ _ g => exact not_ok_of_error (f := file) (n := n) (by simp [hfe])
    | protectedEntry => simp [Res.outcome]
  · simp [Res.outcome]
  · cases g2 with
    | sym _ g => exact not_ok_of_error (f := file) (n := n) (by simp [hfe])

/-- Reading an included file is part of reading the file that includes it: its definitions and errors are
    in the trace. -/
theorem exec_included {w : World} {search inc st : List Str} {ds : List (Nat × Directive)} {e : Env}
    {tr : List Stmt} {st' : List Str} {e' : Env} (h : Exec w search inc st ds e tr (.done st') e') {n : Nat} {name : Str}
    (hm : (n, .incl name) ∈ ds) :
    ∃ y path c ls ds' st1 e1 t1 st2 e2 u1 u2, Expands (symbols w e1) name y ∧ path = resolveFileName w search inc y ∧
      w.content path = some c ∧ TextIs c ls ∧ Lines 0 ls ds' ∧
      Exec w search (path :: inc) st1 ds' e1 t1 (.done st2) e2 ∧ tr = u1 ++ t1 ++ u2 := by
  obtain ⟨a, b, rfl⟩ := List.append_of_mem hm
  rcases exec_split h with ⟨x, hx⟩ | ⟨t1, st1, e1, t2, g1, g2, rfl⟩
  · cases hx
  · cases g2 with
    | incl hy hp hr hc ht hl hx1 hx2 =>
      exact ⟨_, _, _, _, _, _, _, _, _, _, t1, _, hy, hp, hc, ht, hl, hx1, by simp; rfl⟩

/-- The lines `ds`, or those of every file that an include line among them may stand for, contain a syntax
    error. -/
inductive BadSomewhere (w : World) (search : List Str) : List Str → List (Nat × Directive) → Prop where
  | here {inc ds n} : (n, .bad) ∈ ds → BadSomewhere w search inc ds
  | flag {inc ds n rel key flags rhs f} : (n, .entry rel key flags rhs) ∈ ds ∨ (n, .sym key flags rhs) ∈ ds → f ∈ flags → ¬ IsRO f →
      BadSomewhere w search inc ds
  | included {inc ds n name} : (n, .incl name) ∈ ds →
      (∀ e y path c ls ds', Expands (symbols w e) name y → path = resolveFileName w search inc y → w.content path = some c → TextIs c ls →
        Lines 0 ls ds' → BadSomewhere w search (path :: inc) ds') → BadSomewhere w search inc ds

theorem exec_bad_somewhere {w : World} {search inc : List Str} {ds : List (Nat × Directive)} (h : BadSomewhere w search inc ds) :
    ∀ {file inc0}, inc = file :: inc0 → ∀ {st e tr st' e'}, Exec w search inc st ds e tr (.done st') e' → ∃ f n, .error f n ∈ tr := by
  induction h with
  | @here inc ds n hb =>
    intro file inc0 hi st e tr st' e' hx
    cases hi
    obtain ⟨a, b, rfl⟩ := List.append_of_mem hb
    rcases exec_split hx with ⟨x, hx⟩ | ⟨t1, st1, e1, t2, g1, g2, rfl⟩
    · cases hx
    · cases g2 with
      | bad g => exact ⟨file, n, by simp⟩
  | @flag inc ds n rel key flags rhs fl hb hfl hro =>
    intro file inc0 hi st e tr st' e' hx
    cases hi
    have hfe : .error file n ∈ flagErrors file n flags := by
      unfold flagErrors
      exact List.mem_map.2 ⟨fl, List.mem_filter.2 ⟨hfl, by simp [hro]⟩, rfl⟩
    rcases hb with hb | hb <;> obtain ⟨a, b, rfl⟩ := List.append_of_mem hb <;>
      rcases exec_split hx with ⟨x, hx⟩ | ⟨t1, st1, e1, t2, g1, g2, rfl⟩
    · cases hx
    · cases g2 with
      | entry _ _ _ g => exact ⟨file, n, by simp [hfe]⟩
    · cases hx
    · cases g2 with
      | sym _ g => exact ⟨file, n, by simp [hfe]⟩
  | @included inc ds n name hm _ ih =>
    intro file inc0 hi st e tr st' e' hx
    obtain ⟨y, path, c, ls, ds', st1, e1, t1, st2, e2, u1, u2, hy, hp, hc, ht, hl, hx1, rfl⟩ := exec_included hx hm
    obtain ⟨f, m, hf⟩ := ih e1 y path c ls ds' hy hp hc ht hl rfl hx1
    exact ⟨f, m, by simp [hf]⟩

/-- A syntax error in an included file (directly or indirectly) makes `parse_config` throw as well. -/
theorem C21_bad_included {w : World} {search : List Str} {file c : Str} {ls : List Str}
    {ds : List (Nat × Directive)} (hc : w.content file = some c) (ht : TextIs c ls) (hl : Lines 0 ls ds)
    (hb : BadSomewhere w search [file] ds) {h : Heap} (hr : Reachable h) {s' : PS} {o : Except PExc Unit}
    (hp : Parses w (fresh h search) file s' o) : o ≠ .ok () := by
  obtain ⟨tr, r, e', h1, h2, _⟩ := C20_every_parse hc ht hl hr hp
  rw [h2]
  cases r with
  | thrown x => simp [Res.outcome]
  | done st =>
    obtain ⟨f, n, hf⟩ := exec_bad_somewhere hb rfl h1
    exact not_ok_of_error hf

/-- Unless an exception interrupts the reading, every well-formed entry is entered, whatever errors other
    lines contain. -/
theorem C21_others_entered {w : World} {search : List Str} {file c : Str} {ls : List Str}
    {ds : List (Nat × Directive)} (hc : w.content file = some c) (ht : TextIs c ls) (hl : Lines 0 ls ds)
    {h : Heap} (hr : Reachable h) {s' : PS} {o : Except PExc Unit} (hp : Parses w (fresh h search) file s' o) :
    ∃ tr r e', Exec w search [file] [] ds Env.empty tr r e' ∧ o = r.outcome file tr ∧
      ((∃ x, r = .thrown x) ∨ ∀ n rel key flags rhs, (n, .entry rel key flags rhs) ∈ ds →
        ∃ st v, .set file n (blockPrefix st ++ key) v (flags.any (IsRO ·)) ∈ tr ∧
          hasValue s'.heap s'.cfg (blockPrefix st ++ key) = .ok true) := by
  obtain ⟨tr, r, e', h1, h2, h3⟩ := C20_every_parse hc ht hl hr hp
  refine ⟨tr, r, e', h1, h2, ?_⟩
  cases r with
  | thrown x => exact .inl ⟨x, rfl⟩
  | done st0 =>
    right
    intro n rel key flags rhs hm
    obtain ⟨a, b, rfl⟩ := List.append_of_mem hm
    rcases exec_split h1 with ⟨x, hx⟩ | ⟨t1, st1, e1, t2, g1, g2, rfl⟩
    · cases hx
    · cases g2 with
      | entry _ _ _ g =>
        refine ⟨st1, _, List.mem_append_right _ (List.mem_append_right _ (List.mem_cons_self ..)), ?_⟩
        rw [(h3 _).2.1]
        congr 1
        rw [exec_env g]
        apply val_mono
        simp [Env.apply]

example : ∃ s' o, Parses demoWorld (fresh [] []) (c!"/d/main.cfg") s' o ∧ o ≠ .ok () ∧
    getValue s'.heap s'.cfg (c!"alpha:sub") = .ok (c!"two") := by
  obtain ⟨s', o, hp, ho, _, _, hv, _⟩ := demo_parses
  exact ⟨s', o, hp, by rw [ho]; simp, hv⟩

/-! ### C22: read-only entries -/

theorem ro_mono : ∀ (t : List Stmt) (e : Env) (k : Str), e.ro k = true → (t.foldl Env.apply e).ro k = true := by
  intro t
  induction t with
  | nil => intro e k h; exact h
  | cons a t ih =>
    intro e k h
    apply ih
    cases a with
    | set f n k' v r => simp only [Env.apply, h, Bool.or_true]
    | sym k' v => exact h
    | error f n => exact h

theorem val_unchanged : ∀ (t : List Stmt) (e : Env) (k : Str), (∀ f n v r, Stmt.set f n k v r ∉ t) →
    (t.foldl Env.apply e).val k = e.val k ∧ (t.foldl Env.apply e).loc k = e.loc k := by
  intro t
  induction t with
  | nil => intro e k _; exact ⟨rfl, rfl⟩
  | cons a t ih =>
    intro e k h
    have h' : ∀ f n v r, Stmt.set f n k v r ∉ t := fun f n v r hm => h f n v r (by simp [hm])
    rw [List.foldl_cons, (ih (e.apply a) k h').1, (ih (e.apply a) k h').2]
    cases a with
    | set f n k' v r =>
      have : k ≠ k' := by rintro rfl; exact h f n v r (by simp)
      simp [Env.apply, this]
    | sym k' v => exact ⟨rfl, rfl⟩
    | error f n => exact ⟨rfl, rfl⟩

theorem all_lines {w : World} {file c : Str} {ls : List Str} {ds : List (Nat × Directive)}
    (hc : w.content file = some c) (ht : TextIs c ls) (hl : Lines 0 ls ds) : ∀ n d, (n, d) ∈ ds → LineOf w file n d :=
  fun _ _ hm => ⟨c, ls, ds, hc, ht, hl, hm⟩

/-- After `key[RO] = v` no later line redefines the key: the value stays `v` and keeps its location. -/
theorem C22_value_kept {w : World} {search : List Str} {file c : Str} {ls : List Str}
    {ds : List (Nat × Directive)} (hc : w.content file = some c) (ht : TextIs c ls) (hl : Lines 0 ls ds)
    {h : Heap} (hr : Reachable h) {s' : PS} {o : Except PExc Unit} (hp : Parses w (fresh h search) file s' o) :
    ∃ tr r e', Exec w search [file] [] ds Env.empty tr r e' ∧ o = r.outcome file tr ∧
      ∀ t1 t2 f (n : Nat) k v, tr = t1 ++ .set f n k v true :: t2 →
        (∀ f' n' v' ro', Stmt.set f' n' k v' ro' ∉ t2) ∧ getValue s'.heap s'.cfg k = .ok v ∧
        isReadOnly s'.heap s'.cfg k = .ok true ∧ getLocation s'.heap s'.cfg k = .ok (some (f, (n : Int))) := by
  obtain ⟨tr, r, e', h1, h2, h3⟩ := C20_every_parse hc ht hl hr hp
  refine ⟨tr, r, e', h1, h2, ?_⟩
  intro t1 t2 f n k v htr
  have hno : ∀ f' n' v' ro', Stmt.set f' n' k v' ro' ∉ t2 := by
    intro f' n' v' ro' hm
    obtain ⟨a, b, rfl⟩ := List.append_of_mem hm
    have hj := exec_justified h1 file [] rfl (all_lines hc ht hl) (t1 ++ .set f n k v true :: a) (.set f' n' k v' ro') b
      (by rw [htr]; simp)
    obtain ⟨st, rel, key, flags, rhs, x, _, _, _, _, _, hro⟩ := hj
    rw [List.foldl_append, List.foldl_cons] at hro
    rw [ro_mono a _ k (by simp [Env.apply])] at hro
    cases hro
  refine ⟨hno, ?_, ?_, ?_⟩
  · rw [(h3 k).1, exec_env h1, htr, List.foldl_append, List.foldl_cons, (val_unchanged t2 _ k hno).1]
    simp [Env.apply]
  · rw [(h3 k).2.2.1, exec_env h1, htr, List.foldl_append, List.foldl_cons, ro_mono t2 _ k (by simp [Env.apply])]
  · rw [(h3 k).2.2.2.1, exec_env h1, htr, List.foldl_append, List.foldl_cons, (val_unchanged t2 _ k hno).2]
    simp [Env.apply]

/-- Two definitions of the same full key in the main file, the first of them read-only: the parse throws. -/
theorem C22_redefinition_throws {w : World} {search : List Str} {file c : Str} {ls : List Str}
    {a b post : List (Nat × Directive)} {n m : Nat} {rel rel' : Bool} {key key' : Str} {flags flags' : List Str} {rhs rhs' : Str}
    {st st' : List Str} (hc : w.content file = some c) (ht : TextIs c ls)
    (hl : Lines 0 ls (a ++ (n, .entry rel key flags rhs) :: (b ++ (m, .entry rel' key' flags' rhs') :: post)))
    (ha : ∀ n d, (n, d) ∈ a → d.isIncl = false) (hb : ∀ n d, (n, d) ∈ b → d.isIncl = false)
    (hst : openBlocks [] a = some st) (hst' : openBlocks st b = some st')
    (hk : blockPrefix st ++ key = blockPrefix st' ++ key') (hf : ∃ f ∈ flags, IsRO f)
    {h : Heap} (hr : Reachable h) {s' : PS} {o : Except PExc Unit} (hp : Parses w (fresh h search) file s' o) :
    o ≠ .ok () := by
  obtain ⟨tr, r, e', h1, h2, h3⟩ := C20_every_parse hc ht hl hr hp
  rw [h2]
  rcases exec_split h1 with ⟨x, rfl⟩ | ⟨t1, st1, e1, t2, g1, g2, rfl⟩
  · simp [Res.outcome]
  have e1 := exec_blocks g1 ha st1 rfl
  rw [hst] at e1; cases e1
  cases g2 with
  | protectedEntry => simp [Res.outcome]
  | entry _ _ _ g =>
    rcases exec_split g with ⟨x, rfl⟩ | ⟨u1, st2, e2, u2, g3, g4, rfl⟩
    · simp [Res.outcome]
    have e2 := exec_blocks g3 hb st2 rfl
    rw [hst'] at e2; cases e2
    cases g4 with
    | protectedEntry => simp [Res.outcome]
    | entry _ _ hro _ =>
      rw [exec_env g3, ← hk, ro_mono _ _ _ ?_] at hro
      · cases hro
      · obtain ⟨f, hf1, hf2⟩ := hf
        have : flags.any (IsRO ·) = true := List.any_eq_true.2 ⟨f, hf1, by simpa using hf2⟩
        simp [Env.apply, this]

/-! ### C23, C31: the last definition wins and has its location -/

/-- The last definition of `k` in a trace. -/
def LastDef (tr : List Stmt) (k : Str) (f : Str) (n : Nat) (v : Str) : Prop :=
  ∃ t1 t2 ro, tr = t1 ++ .set f n k v ro :: t2 ∧ ∀ f' n' v' ro', Stmt.set f' n' k v' ro' ∉ t2

theorem lastDef_or (tr : List Stmt) (k : Str) :
    (∃ f n v, LastDef tr k f n v) ∨ ∀ f n v ro, Stmt.set f n k v ro ∉ tr := by
  induction tr with
  | nil => right; simp
  | cons a tr ih =>
    rcases ih with ⟨f, n, v, t1, t2, ro, h1, h2⟩ | h
    · exact .inl ⟨f, n, v, a :: t1, t2, ro, by simp [h1], h2⟩
    · by_cases hk : ∃ f n v ro, a = .set f n k v ro
      · obtain ⟨f, n, v, ro, rfl⟩ := hk
        exact .inl ⟨f, n, v, [], tr, ro, rfl, h⟩
      · right
        intro f n v ro hm
        rcases List.mem_cons.1 hm with h' | h'
        · exact hk ⟨f, n, v, ro, h'.symm⟩
        · exact h f n v ro h'

/-- Every key has the value and the source location of its last definition in reading order; keys without
    definition have neither.  Each definition of the trace comes from a line of a file, and its value is the
    text of that line expanded with what was defined before (`Justified`). -/
theorem C23_last_definition_wins {w : World} {search : List Str} {file c : Str} {ls : List Str}
    {ds : List (Nat × Directive)} (hc : w.content file = some c) (ht : TextIs c ls) (hl : Lines 0 ls ds)
    {h : Heap} (hr : Reachable h) {s' : PS} {o : Except PExc Unit} (hp : Parses w (fresh h search) file s' o) :
    ∃ tr r e', Exec w search [file] [] ds Env.empty tr r e' ∧ o = r.outcome file tr ∧
      (∀ t1 x t2, tr = t1 ++ x :: t2 → Justified w (t1.foldl Env.apply Env.empty) x) ∧
      ∀ k, (∀ f n v, LastDef tr k f n v → getValue s'.heap s'.cfg k = .ok v) ∧
        ((∀ f n v ro, Stmt.set f n k v ro ∉ tr) → getValue s'.heap s'.cfg k = .error (.noSuch k)) := by
  obtain ⟨tr, r, e', h1, h2, h3⟩ := C20_every_parse hc ht hl hr hp
  refine ⟨tr, r, e', h1, h2, exec_justified h1 file [] rfl (all_lines hc ht hl), ?_⟩
  intro k
  refine ⟨?_, ?_⟩
  · rintro f n v ⟨t1, t2, ro, rfl, hno⟩
    rw [(h3 k).1, exec_env h1, List.foldl_append, List.foldl_cons, (val_unchanged t2 _ k hno).1]
    simp [Env.apply]
  · intro hno
    rw [(h3 k).1, exec_env h1, (val_unchanged tr _ k hno).1]
    rfl

theorem C31_location_of_last_definition {w : World} {search : List Str} {file c : Str} {ls : List Str}
    {ds : List (Nat × Directive)} (hc : w.content file = some c) (ht : TextIs c ls) (hl : Lines 0 ls ds)
    {h : Heap} (hr : Reachable h) {s' : PS} {o : Except PExc Unit} (hp : Parses w (fresh h search) file s' o) :
    ∃ tr r e', Exec w search [file] [] ds Env.empty tr r e' ∧ o = r.outcome file tr ∧
      (∀ f n k v ro, Stmt.set f n k v ro ∈ tr → ∃ rel key flags rhs, LineOf w f n (.entry rel key flags rhs) ∧ key <:+ k) ∧
      ∀ k, (∀ f (n : Nat) v, LastDef tr k f n v → getLocation s'.heap s'.cfg k = .ok (some (f, (n : Int)))) ∧
        ((∀ f n v ro, Stmt.set f n k v ro ∉ tr) → getLocation s'.heap s'.cfg k = .ok none) := by
  obtain ⟨tr, r, e', h1, h2, h3⟩ := C20_every_parse hc ht hl hr hp
  refine ⟨tr, r, e', h1, h2, ?_, ?_⟩
  · intro f n k v ro hm
    obtain ⟨a, b, rfl⟩ := List.append_of_mem hm
    obtain ⟨st, rel, key, flags, rhs, x, hln, rfl, _⟩ :=
      exec_justified h1 file [] rfl (all_lines hc ht hl) a (.set f n k v ro) b rfl
    exact ⟨rel, key, flags, rhs, hln, List.suffix_append _ _⟩
  intro k
  refine ⟨?_, ?_⟩
  · rintro f n v ⟨t1, t2, ro, rfl, hno⟩
    rw [(h3 k).2.2.2.1, exec_env h1, List.foldl_append, List.foldl_cons, (val_unchanged t2 _ k hno).2]
    simp [Env.apply]
  · intro hno
    rw [(h3 k).2.2.2.1, exec_env h1, (val_unchanged tr _ k hno).2]
    rfl

/-! ### C24: what `$CONFIG{k}` and `$LOCAL{k}` stand for -/

theorem sym_after : ∀ (t : List Stmt) (e : Env) (k : Str),
    (∀ v t1 t2, t = t1 ++ .sym k v :: t2 → (∀ v', Stmt.sym k v' ∉ t2) → (t.foldl Env.apply e).sym k = some v) ∧
    ((∀ v, Stmt.sym k v ∉ t) → (t.foldl Env.apply e).sym k = e.sym k) := by
  intro t
  induction t with
  | nil => intro e k; exact ⟨fun v t1 t2 h => by simp at h, fun _ => rfl⟩
  | cons a t ih =>
    intro e k
    refine ⟨?_, ?_⟩
    · intro v t1 t2 h hno
      cases t1 with
      | nil =>
        simp only [List.nil_append, List.cons.injEq] at h
        obtain ⟨rfl, rfl⟩ := h
        rw [List.foldl_cons, (ih _ k).2 hno]
        simp [Env.apply]
      | cons b t1 =>
        simp only [List.cons_append, List.cons.injEq] at h
        rw [List.foldl_cons]
        exact (ih _ k).1 v t1 t2 h.2 hno
    · intro hno
      rw [List.foldl_cons, (ih _ k).2 (fun v hm => hno v (by simp [hm]))]
      cases a with
      | set f n k' v r => rfl
      | sym k' v =>
        have : k ≠ k' := by rintro rfl; exact hno v (by simp)
        simp [Env.apply, this]
      | error f n => rfl

/-- In each definition read (split the trace at it), `$CONFIG{k}` stands for the value of the last earlier
    definition of `k`, `$LOCAL{k}` for the last earlier symbol `k`, and for nothing when there is none. -/
theorem C24_tokens_see_earlier_definitions {w : World} {search : List Str} {file c : Str} {ls : List Str}
    {ds : List (Nat × Directive)} (hc : w.content file = some c) (ht : TextIs c ls) (hl : Lines 0 ls ds)
    {h : Heap} (hr : Reachable h) {s' : PS} {o : Except PExc Unit} (hp : Parses w (fresh h search) file s' o) :
    ∃ tr r e', Exec w search [file] [] ds Env.empty tr r e' ∧ o = r.outcome file tr ∧ Shows s'.heap s'.cfg e' ∧
      ∀ t1 f n k v ro t2, tr = t1 ++ .set f n k v ro :: t2 → ∃ T rel key flags rhs y,
        LineOf w f n (.entry rel key flags rhs) ∧ Expands T rhs y ∧
        StripsTo (if rel then dirOf w f ++ c!"/" ++ y else y) v ∧
        T = [(c!"CONFIG", (t1.foldl Env.apply Env.empty).val), (c!"ENV", w.env),
             (c!"LOCAL", (t1.foldl Env.apply Env.empty).sym), (c!"SYSENV", w.sysenv)] ∧
        (∀ k', (∀ f' n' v', LastDef t1 k' f' n' v' → (t1.foldl Env.apply Env.empty).val k' = some v') ∧
          ((∀ f' n' v' ro', Stmt.set f' n' k' v' ro' ∉ t1) → (t1.foldl Env.apply Env.empty).val k' = none) ∧
          (∀ v' u1 u2, t1 = u1 ++ .sym k' v' :: u2 → (∀ x, Stmt.sym k' x ∉ u2) →
            (t1.foldl Env.apply Env.empty).sym k' = some v') ∧
          ((∀ x, Stmt.sym k' x ∉ t1) → (t1.foldl Env.apply Env.empty).sym k' = none)) := by
  obtain ⟨tr, r, e', h1, h2, h3⟩ := C20_every_parse hc ht hl hr hp
  refine ⟨tr, r, e', h1, h2, h3, ?_⟩
  intro t1 f n k v ro t2 htr
  obtain ⟨st, rel, key, flags, rhs, x, hln, _, ⟨y, hy, rfl⟩, hv, _⟩ :=
    exec_justified h1 file [] rfl (all_lines hc ht hl) t1 _ t2 htr
  refine ⟨_, rel, key, flags, rhs, y, hln, hy, hv, rfl, ?_⟩
  intro k'
  refine ⟨?_, ?_, ?_, ?_⟩
  · rintro f' n' v' ⟨u1, u2, ro', rfl, hno⟩
    rw [List.foldl_append, List.foldl_cons, (val_unchanged u2 _ k' hno).1]
    simp [Env.apply]
  · intro hno
    rw [(val_unchanged t1 _ k' hno).1]; rfl
  · intro v' u1 u2 hu hno
    exact (sym_after t1 _ k').1 v' u1 u2 hu hno
  · intro hno
    rw [(sym_after t1 _ k').2 hno]; rfl

end Vital.Parser
