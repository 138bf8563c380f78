import Verif.Config.ParserProps
/-
  Comments, blank lines and surrounding white space do not matter (C19).
-/
namespace Vital.Parser
open Vital Vital.Config Vital.Expand Vital.Sys

/-- The lines differ only in blank and comment lines, surrounding white space and trailing comments. -/
inductive SameText : List Str → List Str → Prop where
  | nil : SameText [] []
  | left {l ls ls'} : CleansTo l [] → SameText ls ls' → SameText (l :: ls) ls'
  | right {l ls ls'} : CleansTo l [] → SameText ls ls' → SameText ls (l :: ls')
  | both {l l' c ls ls'} : CleansTo l c → CleansTo l' c → SameText ls ls' → SameText (l :: ls) (l' :: ls')

/-- The file contents differ only in that. -/
def SameContent : Option Str → Option Str → Prop
  | none, none => True
  | some c, some c' => ∃ ls ls', TextIs c ls ∧ TextIs c' ls' ∧ SameText ls ls'
  | _, _ => False

theorem read_same {ls ls' : List Str} (h : SameText ls ls') : ∀ n n' p, (readLines n p ls).map Prod.snd = (readLines n' p ls').map Prod.snd := by
  have blank : ∀ {l : Str} (n : Nat) (p : Option Str) (ls : List Str), CleansTo l [] → readLines n p (l :: ls) = readLines (n + 1) p ls := by
    intro l n p ls hc
    exact readLines_blanks (bl := [l]) (by simpa using hc) n p ls
  induction h with
  | nil => intro n n' p; cases p <;> rfl
  | left hc _ ih => intro n n' p; rw [blank n p _ hc]; exact ih _ _ _
  | right hc _ ih => intro n n' p; rw [blank n' p _ hc]; exact ih _ _ _
  | @both l l' c ls ls' h1 h2 _ ih =>
    intro n n' p
    by_cases he : c = []
    · subst he
      rw [blank n p _ h1, blank n' p _ h2]; exact ih _ _ _
    · have e1 := clean_of h1
      have e2 := clean_of h2
      cases p with
      | none =>
        conv => lhs; unfold readLines
        conv => rhs; unfold readLines
        simp only [e1, e2, if_neg he]
        cases classify (normalize c) with
        | none => exact ih _ _ _
        | some d => simp only [List.map_cons]; rw [ih (n + 1) (n' + 1)]
      | some c0 =>
        conv => lhs; unfold readLines
        conv => rhs; unfold readLines
        simp only [e1, e2, if_neg he]
        cases classify (c0 ++ c!" " ++ c) with
        | none => exact ih _ _ _
        | some d => simp only [List.map_cons]; rw [ih (n + 1) (n' + 1)]

/-- A statement without its line number. -/
def Stmt.anyLine : Stmt → Stmt
  | .set f _ k v r => .set f 0 k v r
  | .sym k v => .sym k v
  | .error f _ => .error f 0

/-- Equal but for line numbers. -/
structure SameEnv (e e' : Env) : Prop where
  val : e.val = e'.val
  ro : e.ro = e'.ro
  sym : e.sym = e'.sym
  loc : ∀ k, (e.loc k).map Prod.fst = (e'.loc k).map Prod.fst

theorem SameEnv.symbols {w : World} {e e' : Env} (h : SameEnv e e') : symbols w e = symbols w e' := by
  unfold Parser.symbols; rw [h.val, h.sym]

theorem same_errors (file : Str) (n n' : Nat) (flags : List Str) :
    (flagErrors file n flags).map Stmt.anyLine = (flagErrors file n' flags).map Stmt.anyLine := by
  unfold flagErrors
  simp only [List.map_map]
  rfl

/-- World with other file contents. -/
def withContent (w : World) (c : Str → Option Str) : World := { w with content := c }

theorem symbols_with (w : World) (c : Str → Option Str) (e : Env) : symbols (withContent w c) e = symbols w e := rfl

theorem resolve_with (w : World) (c : Str → Option Str) (search inc : List Str) (y : Str) :
    resolveFileName (withContent w c) search inc y = resolveFileName w search inc y := by
  have h1 : ∀ (i seen : List Str), includeDirs (withContent w c) i seen = includeDirs w i seen := by
    intro i
    induction i with
    | nil => intro seen; rfl
    | cons f fs ih => intro seen; simp only [includeDirs, ih]; rfl
  have h2 : ∀ (ps : List Str), findFile (withContent w c) y ps false = findFile w y ps false := fun ps => rfl
  unfold resolveFileName
  rw [h1, h2, h2]

theorem dirOf_with (w : World) (c : Str → Option Str) (f : Str) : dirOf (withContent w c) f = dirOf w f := rfl

theorem RhsText.same {w : World} {c : Str → Option Str} {e e2 : Env} (he : SameEnv e e2) {file rhs x : Str} {rel : Bool}
    (h : RhsText w e file rel rhs x) : RhsText (withContent w c) e2 file rel rhs x := by
  obtain ⟨y, h1, h2⟩ := h
  refine ⟨y, ?_, h2⟩
  rw [symbols_with, ← he.symbols]
  exact h1

theorem SameEnv.set {e e2 : Env} (h : SameEnv e e2) (f : Str) (n n2 : Nat) (k v : Str) (r : Bool) :
    SameEnv (e.apply (.set f n k v r)) (e2.apply (.set f n2 k v r)) := by
  refine ⟨?_, ?_, h.sym, ?_⟩
  · simp only [Env.apply, h.val]
  · simp only [Env.apply, h.ro]
  · intro k'
    simp only [Env.apply]
    split
    · rfl
    · exact h.loc k'

theorem SameEnv.symbol {e e2 : Env} (h : SameEnv e e2) (k v : Str) :
    SameEnv (e.apply (.sym k v)) (e2.apply (.sym k v)) := by
  refine ⟨h.val, h.ro, ?_, h.loc⟩
  simp only [Env.apply, h.sym]

theorem exec_same {w : World} {c' : Str → Option Str} (hcon : ∀ f, SameContent (w.content f) (c' f)) {search inc st : List Str}
    {ds : List (Nat × Directive)} {e : Env} {tr : List Stmt} {r : Res} {e' : Env} (h : Exec w search inc st ds e tr r e') :
    ∀ ds2 e2, ds.map Prod.snd = ds2.map Prod.snd → SameEnv e e2 → ∃ tr2 e2', Exec (withContent w c') search inc st ds2 e2 tr2 r e2' ∧
      tr.map Stmt.anyLine = tr2.map Stmt.anyLine ∧ SameEnv e' e2' := by
  have incl_same : ∀ {path c : Str} {ls : List Str} {ds' : List (Nat × Directive)}, w.content path = some c → TextIs c ls → Lines 0 ls ds' →
      ∃ c2 ls2 ds2, (withContent w c').content path = some c2 ∧ TextIs c2 ls2 ∧ Lines 0 ls2 ds2 ∧ ds'.map Prod.snd = ds2.map Prod.snd := by
    intro path c ls ds' hc ht hl
    have h1 := hcon path
    rw [hc] at h1
    cases h2 : c' path with
    | none => rw [h2] at h1; exact h1.elim
    | some c2 =>
      rw [h2] at h1
      obtain ⟨m, m', t1, t2, t3⟩ := h1
      have hm : m = ls := by rw [text_iff.1 t1, text_iff.1 ht]
      subst hm
      refine ⟨c2, m', readLines 0 none m', h2, t2, lines_iff.2 rfl, ?_⟩
      rw [lines_iff.1 hl]
      exact read_same t3 0 0 none
  induction h with
  | nil =>
    intro ds2 e2 hd he
    cases ds2 with
    | nil => exact ⟨[], e2, .nil, rfl, he⟩
    | cons => simp at hd
  | bad _ ih =>
    intro ds2 e2 hd he
    match ds2, hd with
    | (n2, d2) :: ds2, hd =>
      simp only [List.map_cons, List.cons.injEq] at hd
      obtain ⟨rfl, hd⟩ := hd
      obtain ⟨tr2, e2', h1, h2, h3⟩ := ih ds2 e2 hd he
      exact ⟨_, e2', .bad h1, by simp [Stmt.anyLine, h2], h3⟩
  | @entry file inc st n rel key flags rhs ds e x v tr r e' hr hv hro _ ih =>
    intro ds2 e2 hd he
    match ds2, hd with
    | (n2, d2) :: ds2, hd =>
      simp only [List.map_cons, List.cons.injEq] at hd
      obtain ⟨rfl, hd⟩ := hd
      obtain ⟨tr2, e2', h1, h2, h3⟩ := ih ds2 _ hd (he.set file n n2 (blockPrefix st ++ key) v (flags.any (IsRO ·)))
      refine ⟨_, e2', .entry (hr.same he) hv (by rw [← he.ro]; exact hro) h1, ?_, h3⟩
      simp only [List.map_append, List.map_cons, h2, same_errors file n n2]
      rfl
  | @protectedEntry file inc st n rel key flags rhs ds e x hr hro =>
    intro ds2 e2 hd he
    match ds2, hd with
    | (n2, d2) :: ds2, hd =>
      simp only [List.map_cons, List.cons.injEq] at hd
      obtain ⟨rfl, hd⟩ := hd
      rw [he.val]
      exact ⟨_, e2, .protectedEntry (hr.same he) (by rw [← he.ro]; exact hro), same_errors file n n2 flags, he⟩
  | @sym file inc st n name flags rhs ds e x tr r e' hx _ ih =>
    intro ds2 e2 hd he
    match ds2, hd with
    | (n2, d2) :: ds2, hd =>
      simp only [List.map_cons, List.cons.injEq] at hd
      obtain ⟨rfl, hd⟩ := hd
      obtain ⟨tr2, e2', h1, h2, h3⟩ := ih ds2 _ hd (he.symbol name x)
      refine ⟨_, e2', .sym (by rw [symbols_with, ← he.symbols]; exact hx) h1, ?_, h3⟩
      simp only [List.map_append, List.map_cons, h2, same_errors file n n2]
  | block _ ih =>
    intro ds2 e2 hd he
    match ds2, hd with
    | (n2, d2) :: ds2, hd =>
      simp only [List.map_cons, List.cons.injEq] at hd
      obtain ⟨rfl, hd⟩ := hd
      obtain ⟨tr2, e2', h1, h2, h3⟩ := ih ds2 e2 hd he
      exact ⟨_, e2', .block h1, h2, h3⟩
  | endblock _ ih =>
    intro ds2 e2 hd he
    match ds2, hd with
    | (n2, d2) :: ds2, hd =>
      simp only [List.map_cons, List.cons.injEq] at hd
      obtain ⟨rfl, hd⟩ := hd
      obtain ⟨tr2, e2', h1, h2, h3⟩ := ih ds2 e2 hd he
      exact ⟨_, e2', .endblock h1, h2, h3⟩
  | strayEnd =>
    intro ds2 e2 hd he
    match ds2, hd with
    | (n2, d2) :: ds2, hd =>
      simp only [List.map_cons, List.cons.injEq] at hd
      obtain ⟨rfl, hd⟩ := hd
      exact ⟨_, e2, .strayEnd, rfl, he⟩
  | incl hx hp hrd hc ht hl _ _ ih1 ih2 =>
    intro ds2 e2 hd he
    match ds2, hd with
    | (n2, d2) :: ds2, hd =>
      simp only [List.map_cons, List.cons.injEq] at hd
      obtain ⟨rfl, hd⟩ := hd
      obtain ⟨c2, ls2, dsi, g1, g2, g3, g4⟩ := incl_same hc ht hl
      obtain ⟨tr2, e2', h1, h2, h3⟩ := ih1 dsi e2 g4 he
      obtain ⟨tr3, e3', h4, h5, h6⟩ := ih2 ds2 e2' hd h3
      exact ⟨_, e3', .incl (by rw [symbols_with, ← he.symbols]; exact hx) (by rw [resolve_with]; exact hp) hrd g1 g2 g3 h1 h4, by simp [h2, h5], h6⟩
  | inclThrows hx hp hrd hc ht hl _ ih1 =>
    intro ds2 e2 hd he
    match ds2, hd with
    | (n2, d2) :: ds2, hd =>
      simp only [List.map_cons, List.cons.injEq] at hd
      obtain ⟨rfl, hd⟩ := hd
      obtain ⟨c2, ls2, dsi, g1, g2, g3, g4⟩ := incl_same hc ht hl
      obtain ⟨tr2, e2', h1, h2, h3⟩ := ih1 dsi e2 g4 he
      exact ⟨_, e2', .inclThrows (by rw [symbols_with, ← he.symbols]; exact hx) (by rw [resolve_with]; exact hp) hrd g1 g2 g3 h1, h2, h3⟩
  | inclMissing hx hp hrd =>
    intro ds2 e2 hd he
    match ds2, hd with
    | (n2, d2) :: ds2, hd =>
      simp only [List.map_cons, List.cons.injEq] at hd
      obtain ⟨rfl, hd⟩ := hd
      exact ⟨_, e2, .inclMissing (by rw [symbols_with, ← he.symbols]; exact hx) (by rw [resolve_with]; exact hp) hrd, rfl, he⟩
  | @inclNoFile inc st n name y path ds e hx hp h1 h2 h3 =>
    intro ds2 e2 hd he
    match ds2, hd with
    | (n2, d2) :: ds2, hd =>
      simp only [List.map_cons, List.cons.injEq] at hd
      obtain ⟨rfl, hd⟩ := hd
      refine ⟨_, e2, .inclNoFile (by rw [symbols_with, ← he.symbols]; exact hx) (by rw [resolve_with]; exact hp) h1 h2 ?_, rfl, he⟩
      rcases h3 with h3 | h3
      · exact .inl h3
      · right
        have h4 := hcon path
        rw [h3] at h4
        change c' path = none
        cases h5 : c' path with
        | none => rfl
        | some c2 => rw [h5] at h4; exact h4.elim

theorem any_same : ∀ {a b : List Stmt}, a.map Stmt.anyLine = b.map Stmt.anyLine → a.any Stmt.isError = b.any Stmt.isError := by
  intro a
  induction a with
  | nil => intro b h; cases b with
    | nil => rfl
    | cons => simp at h
  | cons x a ih =>
    intro b h
    cases b with
    | nil => simp at h
    | cons y b =>
      simp only [List.map_cons, List.cons.injEq] at h
      simp only [List.any_cons, ih h.2]
      congr 1
      have := h.1
      cases x <;> cases y <;> simp_all [Stmt.anyLine, Stmt.isError]

/-- Same queries but for the line numbers of locations. -/
def SameAnswers (h : Heap) (b : Nat) (h' : Heap) (b' : Nat) : Prop := ∀ k,
  getValue h b k = getValue h' b' k ∧ hasValue h b k = hasValue h' b' k ∧ isReadOnly h b k = isReadOnly h' b' k ∧
  getDescription h b k = getDescription h' b' k ∧
  ∃ l l', getLocation h b k = .ok l ∧ getLocation h' b' k = .ok l' ∧ l.map Prod.fst = l'.map Prod.fst

/-- Blank lines, comment lines, trailing comments and surrounding white space, in any of the files, change
    neither the outcome nor the answers of the resulting config. -/
theorem C19_comments_do_not_matter {w : World} {c' : Str → Option Str} (hcon : ∀ f, SameContent (w.content f) (c' f))
    {search : List Str} {file : Str} {h h' : Heap} (hr : Reachable h) (hr' : Reachable h') {s : PS} {o : Except PExc Unit}
    (hp : Parses w (fresh h search) file s o) :
    ∃ s', Parses { w with content := c' } (fresh h' search) file s' o ∧ SameAnswers s.heap s.cfg s'.heap s'.cfg := by
  have hf := hcon file
  cases hc : w.content file with
  | none =>
    rw [hc] at hf
    have hc' : c' file = none := by
      cases h5 : c' file with
      | none => rfl
      | some c2 => rw [h5] at hf; exact hf.elim
    obtain ⟨n, hn⟩ := hp
    simp only [parseF, openFile, hc, Option.some.injEq, Prod.mk.injEq] at hn
    obtain ⟨rfl, rfl⟩ := hn
    refine ⟨_, ⟨0, by simp only [parseF, openFile, hc']; rfl⟩, ?_⟩
    intro k
    have q1 := (fresh_cfg hr.wf search).shows k
    have q2 := (fresh_cfg hr'.wf search).shows k
    refine ⟨q1.1.trans q2.1.symm, q1.2.1.trans q2.2.1.symm, q1.2.2.1.trans q2.2.2.1.symm, q1.2.2.2.2.trans q2.2.2.2.2.symm,
      _, _, q1.2.2.2.1, q2.2.2.2.1, rfl⟩
  | some c =>
    rw [hc] at hf
    cases h5 : c' file with
    | none => rw [h5] at hf; exact hf.elim
    | some c2 =>
      rw [h5] at hf
      obtain ⟨ls, ls', t1, t2, t3⟩ := hf
      obtain ⟨tr, r, e', g1, rfl, g3⟩ := C20_every_parse hc t1 (lines_iff.2 rfl) hr hp
      obtain ⟨tr2, e2, k1, k2, k3⟩ := exec_same hcon g1 (readLines 0 none ls') Env.empty (read_same t3 0 0 none) ⟨rfl, rfl, rfl, fun _ => rfl⟩
      obtain ⟨s', p1, p2⟩ := C20_document (w := withContent w c') h5 t2 (lines_iff.2 rfl) k1 hr'
      refine ⟨s', ?_, ?_⟩
      · have : r.outcome file tr2 = r.outcome file tr := by
          cases r with
          | done st => simp only [Res.outcome, any_same k2]
          | thrown e => rfl
        rw [← this]; exact p1
      · intro k
        have q1 := g3 k
        have q2 := p2 k
        rw [← k3.val, ← k3.ro] at q2
        exact ⟨q1.1.trans q2.1.symm, q1.2.1.trans q2.2.1.symm, q1.2.2.1.trans q2.2.2.1.symm, q1.2.2.2.2.trans q2.2.2.2.2.symm,
          _, _, q1.2.2.2.1, q2.2.2.2.1, k3.loc k⟩

/-- The demo files without comments and indentation. -/
def demoBare (f : Str) : Option Str :=
  if f = c!"/d/main.cfg" then
    some (c!"block alpha\nkey[RO] = 1\ninclude /inc.cfg\n\n#x\nendblock\nbeta:x = <$CONFIG{alpha:key}>\nrelativepath loc = data\n beta:x = 7 $LOCAL{sym}")
  else if f = c!"/inc.cfg" then some demoInc else none

/-- The lines after removal of comments, blanks and blank lines. -/
def bareLines (ls : List Str) : List Str := (ls.map cleanLine).filter (· ≠ [])

theorem same_bare : ∀ (ls ls' : List Str), bareLines ls = bareLines ls' → SameText ls ls' := by
  intro ls
  induction ls with
  | nil =>
    intro ls' h
    induction ls' with
    | nil => exact .nil
    | cons l ls' ih =>
      have h1 : cleanLine l = [] := by
        by_cases hl : cleanLine l = []
        · exact hl
        · simp [bareLines, hl] at h
      have h2 : bareLines [] = bareLines ls' := by
        rw [h]; simp [bareLines, h1]
      obtain ⟨c, hc⟩ := cleans_total l
      have : c = [] := by rw [← clean_of hc, h1]
      subst this
      exact .right hc (ih h2)
  | cons l ls ih =>
    intro ls' h
    obtain ⟨c, hc⟩ := cleans_total l
    have hcl := clean_of hc
    by_cases he : c = []
    · subst he
      exact .left hc (ih ls' (by rw [← h]; simp [bareLines, hcl]))
    · have h1 : bareLines (l :: ls) = c :: bareLines ls := by simp [bareLines, hcl, he]
      rw [h1] at h
      induction ls' with
      | nil => simp [bareLines] at h
      | cons l' ls' ih' =>
        obtain ⟨d, hd⟩ := cleans_total l'
        have hdl := clean_of hd
        by_cases hde : d = []
        · subst hde
          exact .right hd (ih' (by rw [h]; simp [bareLines, hdl]))
        · have h2 : bareLines (l' :: ls') = d :: bareLines ls' := by simp [bareLines, hdl, hde]
          rw [h2] at h
          simp only [List.cons.injEq] at h
          obtain ⟨rfl, h⟩ := h
          exact .both hc hd (ih ls' h)

/-- The hypothesis of C19 holds of the demo files and their bare versions. -/
theorem demo_same : ∀ f, SameContent (demoWorld.content f) (demoBare f) := by
  intro f
  show SameContent (if f = c!"/d/main.cfg" then some demoMain else if f = c!"/inc.cfg" then some demoInc else none)
    (if f = c!"/d/main.cfg" then some _ else if f = c!"/inc.cfg" then some demoInc else none)
  by_cases h1 : f = c!"/d/main.cfg"
  · rw [if_pos h1, if_pos h1]
    exact ⟨_, _, text_iff.2 rfl, text_iff.2 rfl, same_bare _ _ (by decide +kernel)⟩
  · rw [if_neg h1, if_neg h1]
    by_cases h2 : f = c!"/inc.cfg"
    · rw [if_pos h2]
      exact ⟨_, _, text_iff.2 rfl, text_iff.2 rfl, same_bare _ _ rfl⟩
    · rw [if_neg h2]; trivial

example : ∃ s o s', Parses demoWorld (fresh [] []) (c!"/d/main.cfg") s o ∧
    Parses { demoWorld with content := demoBare } (fresh [] []) (c!"/d/main.cfg") s' o ∧ SameAnswers s.heap s.cfg s'.heap s'.cfg ∧
    getValue s'.heap s'.cfg (c!"alpha:sub") = .ok (c!"two") := by
  obtain ⟨s, o, hp, _, _, _, hv, _⟩ := demo_parses
  obtain ⟨s', h1, h2⟩ := C19_comments_do_not_matter demo_same nil_reachable nil_reachable hp
  exact ⟨s, o, s', hp, h1, h2, by rw [← (h2 _).1]; exact hv⟩

end Vital.Parser
