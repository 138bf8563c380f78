import Verif.Config.ParserProps
/-
  Termination of includes (C25).
-/
namespace Vital.Parser
open Vital Vital.Config Vital.Expand Vital.Sys

/-! ### C25: includes -/

/-- `MayInclude child parent`: the file on top of the include stack `parent` has an include line that, for
    some definitions read before, names an existing file, which is put on top to give the stack `child`. -/
def MayInclude (w : World) (search : List Str) (child parent : List Str) : Prop :=
  ∃ file inc path c c' ls ds n name e y, parent = file :: inc ∧ child = path :: parent ∧ w.content file = some c ∧
    TextIs c ls ∧ Lines 0 ls ds ∧ (n, .incl name) ∈ ds ∧ Expands (symbols w e) name y ∧
    path = resolveFileName w search parent y ∧ ReadableFile w path ∧ w.content path = some c'

/-- When includes cannot nest for ever the meaning of a file exists. -/
theorem exec_exists {w : World} {search : List Str} {stack : List Str} (hacc : Acc (MayInclude w search) stack) :
    ∀ file inc c ls all, stack = file :: inc → w.content file = some c → TextIs c ls → Lines 0 ls all →
      ∀ ds, (∀ x ∈ ds, x ∈ all) → ∀ st e, ∃ tr r e', Exec w search stack st ds e tr r e' := by
  induction hacc with
  | intro stack _ ih =>
    intro file inc c ls all hst hc ht hl ds
    induction ds with
    | nil => intro _ st e; exact ⟨_, _, _, .nil⟩
    | cons d ds ihd =>
      intro hsub st e
      have hsub' : ∀ x ∈ ds, x ∈ all := fun x hx => hsub x (by simp [hx])
      obtain ⟨n, d⟩ := d
      cases d with
      | bad =>
        obtain ⟨tr, r, e', h⟩ := ihd hsub' st e
        subst hst
        exact ⟨_, _, _, .bad h⟩
      | entry rel key flags rhs =>
        subst hst
        obtain ⟨y, hy⟩ := expands_total (symbols w e) rhs
        have hrhs : RhsText w e file rel rhs _ := ⟨y, hy, rfl⟩
        cases hro : e.ro (blockPrefix st ++ key) with
        | true => exact ⟨_, _, _, .protectedEntry hrhs hro⟩
        | false =>
          obtain ⟨v, hv⟩ := strips_total _
          obtain ⟨tr, r, e', h⟩ := ihd hsub' st (e.apply (.set file n (blockPrefix st ++ key) v (flags.any (IsRO ·))))
          exact ⟨_, _, _, .entry hrhs hv hro h⟩
      | sym name flags rhs =>
        subst hst
        obtain ⟨y, hy⟩ := expands_total (symbols w e) rhs
        obtain ⟨tr, r, e', h⟩ := ihd hsub' st (e.apply (.sym name y))
        exact ⟨_, _, _, .sym hy h⟩
      | block name =>
        obtain ⟨tr, r, e', h⟩ := ihd hsub' (name :: st) e
        exact ⟨_, _, _, .block h⟩
      | endblock =>
        cases st with
        | nil => subst hst; exact ⟨_, _, _, .strayEnd⟩
        | cons b st =>
          obtain ⟨tr, r, e', h⟩ := ihd hsub' st e
          exact ⟨_, _, _, .endblock h⟩
      | incl name =>
        obtain ⟨y, hy⟩ := expands_total (symbols w e) name
        generalize hp : resolveFileName w search stack y = path
        by_cases hmiss : path = [] ∨ w.readable path = false
        · exact ⟨_, _, _, .inclMissing hy hp.symm hmiss⟩
        · have h1 : path ≠ [] := fun h => hmiss (.inl h)
          have h2 : w.readable path = true := by
            cases h : w.readable path with
            | true => rfl
            | false => exact absurd (.inr h) hmiss
          by_cases hno : w.isDir path = true ∨ w.content path = none
          · exact ⟨_, _, _, .inclNoFile hy hp.symm h1 h2 hno⟩
          · have h3 : w.isDir path = false := by
              cases h : w.isDir path with
              | false => rfl
              | true => exact absurd (.inl h) hno
            cases hc' : w.content path with
            | none => exact absurd (.inr hc') hno
            | some c' =>
              obtain ⟨ls', ds', ht', hl'⟩ := C20_every_text c'
              have hr : ReadableFile w path := ⟨h1, h2, h3⟩
              obtain ⟨t1, r1, e1, hx1⟩ := ih (path :: stack)
                ⟨file, inc, path, c, c', ls, all, n, name, e, y, hst, rfl, hc, ht, hl, hsub _ (by simp), hy, hp.symm, hr, hc'⟩
                path stack c' ls' ds' rfl hc' ht' hl' ds' (fun _ h => h) st e
              cases r1 with
              | thrown q => exact ⟨_, _, _, .inclThrows hy hp.symm hr hc' ht' hl' hx1⟩
              | done st1 =>
                obtain ⟨t2, r2, e2, hx2⟩ := ihd hsub' st1 e1
                exact ⟨_, _, _, .incl hy hp.symm hr hc' ht' hl' hx1 hx2⟩

/-- Parsing terminates when the includes reachable from the file are well-founded. -/
theorem C25_terminates {w : World} {search : List Str} {file : Str} (hacc : Acc (MayInclude w search) [file])
    {h : Heap} (hr : Reachable h) : ∃ s' o, Parses w (fresh h search) file s' o := by
  cases hc : w.content file with
  | none => exact ⟨_, _, 0, by unfold parseF openFile; rw [hc]⟩
  | some c =>
    obtain ⟨ls, ds, ht, hl⟩ := C20_every_text c
    obtain ⟨tr, r, e', hx⟩ := exec_exists hacc file [] c ls ds rfl hc ht hl ds (fun _ h => h) [] Env.empty
    obtain ⟨s', hp, _⟩ := C20_document hc ht hl hx hr
    exact ⟨s', _, hp⟩

/-- `Includes path file`: somewhere, `file` may include `path`. -/
def Includes (w : World) (search : List Str) (path file : Str) : Prop := ∃ inc, MayInclude w search (path :: file :: inc) (file :: inc)

/-- In particular when no chain of includes from the file is infinite. -/
theorem C25_terminates_acyclic {w : World} {search : List Str} {file : Str} (hacc : Acc (Includes w search) file)
    {h : Heap} (hr : Reachable h) : ∃ s' o, Parses w (fresh h search) file s' o := by
  have : ∀ inc, Acc (MayInclude w search) (file :: inc) := by
    induction hacc with
    | intro file _ ih =>
      intro inc
      refine .intro _ ?_
      intro child hm
      have hm' := hm
      obtain ⟨file', inc', path, c, c', ls, ds, n, name, e, y, h1, h2, _⟩ := hm
      subst h2
      exact ih path ⟨inc, hm'⟩ (file :: inc)
  exact C25_terminates (this []) hr

/-- Lines that do not stop the reading of what follows. -/
def Harmless : Directive → Prop
  | .entry _ _ flags _ => ∀ f ∈ flags, ¬ IsRO f
  | .incl _ => False
  | .endblock => False
  | _ => True

/-- Each file of `P` includes another file of `P`, whatever was read before, after harmless lines only. -/
def IncludesForever (w : World) (search : List Str) (P : Str → Prop) : Prop :=
  ∀ file, P file → ∃ c ls pre n name post, w.content file = some c ∧ TextIs c ls ∧
    Lines 0 ls (pre ++ (n, .incl name) :: post) ∧ (∀ m d, (m, d) ∈ pre → Harmless d) ∧
    ∀ inc e y, Expands (symbols w e) name y →
      P (resolveFileName w search (file :: inc) y) ∧ ReadableFile w (resolveFileName w search (file :: inc) y)

theorem exec_forever {w : World} {search : List Str} {P : Str → Prop} (hP : IncludesForever w search P)
    {inc st : List Str} {ds : List (Nat × Directive)} {e : Env} {tr : List Stmt} {r : Res} {e' : Env}
    (h : Exec w search inc st ds e tr r e') : (∀ k, e.ro k = false) → ∀ file inc0 pre n name post, inc = file :: inc0 →
      ds = pre ++ (n, .incl name) :: post → (∀ m d, (m, d) ∈ pre → Harmless d) →
      (∀ inc e y, Expands (symbols w e) name y →
        P (resolveFileName w search (file :: inc) y) ∧ ReadableFile w (resolveFileName w search (file :: inc) y)) → False := by
  have start : ∀ {path c ls ds'}, P path → w.content path = some c → TextIs c ls → Lines 0 ls ds' →
      ∃ pre n name post, ds' = pre ++ (n, .incl name) :: post ∧ (∀ m d, (m, d) ∈ pre → Harmless d) ∧
        ∀ inc e y, Expands (symbols w e) name y →
          P (resolveFileName w search (path :: inc) y) ∧ ReadableFile w (resolveFileName w search (path :: inc) y) := by
    intro path c ls ds' hp hc ht hl
    obtain ⟨c1, ls1, pre, n, name, post, h1, h2, h3, h4, h5⟩ := hP path hp
    rw [hc] at h1; cases h1
    obtain ⟨rfl, rfl⟩ := C20_one_meaning ht hl h2 h3
    exact ⟨pre, n, name, post, rfl, h4, h5⟩
  induction h with
  | nil => intro _ file inc0 pre n name post _ hd; simp at hd
  | bad _ ih =>
    intro hro file inc0 pre n name post hi hd hh hn
    cases pre with
    | nil => cases hd
    | cons d pre =>
      simp only [List.cons_append, List.cons.injEq] at hd
      exact ih hro file inc0 pre n name post hi hd.2 (fun m d hm => hh m d (by simp [hm])) hn
  | entry _ _ _ _ ih =>
    intro hro file inc0 pre n name post hi hd hh hn
    cases pre with
    | nil => cases hd
    | cons d pre =>
      simp only [List.cons_append, List.cons.injEq] at hd
      refine ih ?_ file inc0 pre n name post hi hd.2 (fun m d hm => hh m d (by simp [hm])) hn
      intro k
      have := hh _ _ (by rw [← hd.1]; exact List.mem_cons_self ..)
      simp only [Harmless] at this
      simp only [Env.apply, hro, Bool.or_false]
      have hany : ∀ fl : List Str, (∀ f ∈ fl, ¬ IsRO f) → fl.any (IsRO ·) = false := by
        intro fl hfl
        rw [List.any_eq_false]
        intro f hf
        simpa using hfl f hf
      rw [hany _ this, Bool.and_false]
  | protectedEntry _ hro' =>
    intro hro
    rw [hro] at hro'; cases hro'
  | sym _ _ ih =>
    intro hro file inc0 pre n name post hi hd hh hn
    cases pre with
    | nil => cases hd
    | cons d pre =>
      simp only [List.cons_append, List.cons.injEq] at hd
      exact ih hro file inc0 pre n name post hi hd.2 (fun m d hm => hh m d (by simp [hm])) hn
  | block _ ih =>
    intro hro file inc0 pre n name post hi hd hh hn
    cases pre with
    | nil => cases hd
    | cons d pre =>
      simp only [List.cons_append, List.cons.injEq] at hd
      exact ih hro file inc0 pre n name post hi hd.2 (fun m d hm => hh m d (by simp [hm])) hn
  | endblock _ _ =>
    intro hro file inc0 pre n name post hi hd hh hn
    cases pre with
    | nil => cases hd
    | cons d pre =>
      simp only [List.cons_append, List.cons.injEq] at hd
      exact hh _ _ (by rw [← hd.1]; exact List.mem_cons_self ..)
  | strayEnd =>
    intro hro file inc0 pre n name post hi hd hh hn
    cases pre with
    | nil => cases hd
    | cons d pre =>
      simp only [List.cons_append, List.cons.injEq] at hd
      exact hh _ _ (by rw [← hd.1]; exact List.mem_cons_self ..)
  | @incl inc st n0 name0 y path c ls ds' ds e t1 st1 e1 t2 r e2 hy hp hr hc ht hl _ _ ih _ =>
    intro hro file inc0 pre n name post hi hd hh hn
    cases pre with
    | nil =>
      simp only [List.nil_append, List.cons.injEq, Prod.mk.injEq, Directive.incl.injEq] at hd
      obtain ⟨⟨rfl, rfl⟩, rfl⟩ := hd
      subst hi
      subst hp
      obtain ⟨pre, n, name, post, g1, g2, g3⟩ := start (hn inc0 e y hy).1 hc ht hl
      exact ih hro _ _ pre n name post rfl g1 g2 g3
    | cons d pre =>
      simp only [List.cons_append, List.cons.injEq] at hd
      exact hh _ _ (by rw [← hd.1]; exact List.mem_cons_self ..)
  | @inclThrows inc st n0 name0 y path c ls ds' ds e t1 x e1 hy hp hr hc ht hl _ ih =>
    intro hro file inc0 pre n name post hi hd hh hn
    cases pre with
    | nil =>
      simp only [List.nil_append, List.cons.injEq, Prod.mk.injEq, Directive.incl.injEq] at hd
      obtain ⟨⟨rfl, rfl⟩, rfl⟩ := hd
      subst hi
      subst hp
      obtain ⟨pre, n, name, post, g1, g2, g3⟩ := start (hn inc0 e y hy).1 hc ht hl
      exact ih hro _ _ pre n name post rfl g1 g2 g3
    | cons d pre =>
      simp only [List.cons_append, List.cons.injEq] at hd
      exact hh _ _ (by rw [← hd.1]; exact List.mem_cons_self ..)
  | @inclMissing inc st n0 name0 y path ds e hy hp hmiss =>
    intro hro file inc0 pre n name post hi hd hh hn
    cases pre with
    | nil =>
      simp only [List.nil_append, List.cons.injEq, Prod.mk.injEq, Directive.incl.injEq] at hd
      obtain ⟨⟨rfl, rfl⟩, rfl⟩ := hd
      subst hi
      subst hp
      obtain ⟨h1, h2, h3⟩ := (hn inc0 e y hy).2
      rcases hmiss with h | h
      · exact h1 h
      · rw [h] at h2; cases h2
    | cons d pre =>
      simp only [List.cons_append, List.cons.injEq] at hd
      exact hh _ _ (by rw [← hd.1]; exact List.mem_cons_self ..)
  | @inclNoFile inc st n0 name0 y path ds e hy hp _ _ hno =>
    intro hro file inc0 pre n name post hi hd hh hn
    cases pre with
    | nil =>
      simp only [List.nil_append, List.cons.injEq, Prod.mk.injEq, Directive.incl.injEq] at hd
      obtain ⟨⟨rfl, rfl⟩, rfl⟩ := hd
      subst hi
      subst hp
      obtain ⟨h1, h2, h3⟩ := (hn inc0 e y hy).2
      obtain ⟨c, _, _, _, _, _, hc, _⟩ := hP _ (hn inc0 e y hy).1
      rcases hno with h | h
      · rw [h] at h3; cases h3
      · rw [h] at hc; cases hc
    | cons d pre =>
      simp only [List.cons_append, List.cons.injEq] at hd
      exact hh _ _ (by rw [← hd.1]; exact List.mem_cons_self ..)

/-- Files that include each other in a cycle are parsed for ever: no number of steps suffices. -/
theorem C25_diverges {w : World} {search : List Str} {P : Str → Prop} (hP : IncludesForever w search P) {file : Str} (hf : P file)
    {h : Heap} (hr : Reachable h) : ∀ n, parseF n w (fresh h search) file = none := by
  intro n
  cases hn : parseF n w (fresh h search) file with
  | none => rfl
  | some x =>
    exfalso
    obtain ⟨c, ls, pre, m, name, post, h1, h2, h3, h4, h5⟩ := hP file hf
    obtain ⟨tr, r, e', hx, _⟩ := C20_every_parse h1 h2 h3 hr (s' := x.1) (o := x.2) ⟨n, hn⟩
    exact exec_forever hP hx (fun _ => rfl) file [] pre m name post rfl rfl h4 h5

/-- A file whose first directive includes the file itself by its full name. -/
theorem C25_self_include_diverges {w : World} {search : List Str} {file c : Str} {ls : List Str} {n : Nat} {post : List (Nat × Directive)}
    (hfull : fileIsFullPath file = true) (hd : '$' ∉ file) (hread : ReadableFile w file) (hc : w.content file = some c)
    (ht : TextIs c ls) (hl : Lines 0 ls ((n, .incl file) :: post)) {h : Heap} (hr : Reachable h) :
    ∀ k, parseF k w (fresh h search) file = none := by
  apply C25_diverges (P := fun f => f = file) _ rfl hr
  rintro f rfl
  refine ⟨c, ls, [], n, f, post, hc, ht, hl, by simp, ?_⟩
  intro inc e y hy
  have hff : Expands (symbols w e) f f := by
    apply (C16_expand_is_one_pass _ _ _).1
    apply C15_no_token_unchanged
    rintro pre t ty nm po ⟨rfl, _⟩ hx
    exfalso
    apply hd
    rw [hx]
    simp
  have := expands_det hy hff
  subst this
  simp only [resolveFileName, hfull, if_true]
  exact ⟨trivial, hread⟩

def selfWorld : World :=
  { content := fun f => if f = c!"/a.cfg" then some (c!"# endless\ninclude /a.cfg\nfoo = 1\n") else none
    readable := fun f => f = c!"/a.cfg" }

example : ∀ k, parseF k selfWorld (fresh [] []) (c!"/a.cfg") = none :=
  C25_self_include_diverges (c := c!"# endless\ninclude /a.cfg\nfoo = 1\n") (n := 2) (post := [(3, .entry false (c!"foo") [] (c!"1"))])
    (by decide +kernel) (by decide) ⟨by decide, by decide +kernel, rfl⟩ rfl (text_iff.2 rfl) (lines_iff.2 (by decide +kernel)) nil_reachable

/-- Two files that include each other. -/
def pingWorld : World :=
  { content := fun f => if f = c!"/a.cfg" then some (c!"xyz = 1\ninclude /b.cfg") else if f = c!"/b.cfg" then some (c!"block foo\ninclude /a.cfg") else none
    readable := fun f => f = c!"/a.cfg" || f = c!"/b.cfg" }

theorem expands_plain {T : Types} {s y : Str} (hd : '$' ∉ s) (h : Expands T s y) : y = s := by
  refine expands_det h ?_
  apply (C16_expand_is_one_pass _ _ _).1
  apply C15_no_token_unchanged
  rintro pre t ty nm po ⟨rfl, _⟩ hx
  exact absurd (by rw [hx]; simp) hd

example : ∀ k, parseF k pingWorld (fresh [] []) (c!"/a.cfg") = none := by
  refine C25_diverges (P := fun f => f = c!"/a.cfg" ∨ f = c!"/b.cfg") ?_ (.inl rfl) nil_reachable
  rintro f (rfl | rfl)
  · refine ⟨_, _, [(1, .entry false (c!"xyz") [] (c!"1"))], 2, c!"/b.cfg", [], rfl, text_iff.2 rfl, lines_iff.2 (by decide +kernel), ?_, ?_⟩
    · intro m d hm; simp at hm; rw [hm.2]; simp [Harmless]
    · intro inc e y hy
      have hf : fileIsFullPath (c!"/b.cfg") = true := by decide +kernel
      rw [expands_plain (by decide) hy]
      simp only [resolveFileName, hf, if_true]
      exact ⟨.inr trivial, by decide, by decide +kernel, rfl⟩
  · refine ⟨_, _, [(1, .block (c!"foo"))], 2, c!"/a.cfg", [], rfl, text_iff.2 rfl, lines_iff.2 (by decide +kernel), ?_, ?_⟩
    · intro m d hm; simp at hm; rw [hm.2]; simp [Harmless]
    · intro inc e y hy
      have hf : fileIsFullPath (c!"/a.cfg") = true := by decide +kernel
      rw [expands_plain (by decide) hy]
      simp only [resolveFileName, hf, if_true]
      exact ⟨.inl trivial, by decide, by decide +kernel, rfl⟩

/-- The demo world includes without cycles. -/
theorem demo_acc : Acc (Includes demoWorld []) (c!"/d/main.cfg") := by
  have noInc : ∀ f, f ≠ c!"/d/main.cfg" → Acc (Includes demoWorld []) f := by
    intro f hf
    refine .intro _ ?_
    rintro path ⟨inc, file, inc', path', c, c', ls, ds, n, name, e, y, h1, _, h3, h4, h5, h6, _⟩
    exfalso
    simp only [List.cons.injEq] at h1
    obtain ⟨rfl, rfl⟩ := h1
    simp only [demoWorld, if_neg hf] at h3
    split at h3
    · cases h3
      have e1 := lines_iff.1 h5
      rw [text_iff.1 h4, lines_iff.1 demoInc_lines |>.symm] at e1
      subst e1
      simp [demoIncLines] at h6
    · simp at h3
  refine .intro _ ?_
  rintro path ⟨inc, file, inc', path', c, c', ls, ds, n, name, e, y, h1, h2, h3, h4, h5, h6, h7, h8, _⟩
  simp only [List.cons.injEq] at h1 h2
  obtain ⟨rfl, rfl⟩ := h1
  obtain ⟨rfl, _⟩ := h2
  simp only [demoWorld, if_true, Option.some.injEq] at h3
  subst h3
  have e1 := lines_iff.1 h5
  rw [text_iff.1 h4, lines_iff.1 demo_lines |>.symm] at e1
  subst e1
  simp [demoLines] at h6
  obtain ⟨_, rfl⟩ := h6
  have hy := expands_plain (by decide) h7
  subst hy
  have hf : fileIsFullPath (c!"/inc.cfg") = true := by decide +kernel
  simp only [resolveFileName, hf, if_true] at h8
  subst h8
  exact noInc _ (by decide)

example : ∃ s' o, Parses demoWorld (fresh [] []) (c!"/d/main.cfg") s' o := C25_terminates_acyclic demo_acc nil_reachable

end Vital.Parser
