import Verif.Config.ParserSim
/-
  The parser implements the specification: simulation of `Exec` and `Main` by `loopF`.
-/
namespace Vital.Parser
open Vital Vital.Config Vital.Expand Vital.Sys

/-! ### Fuel -/

theorem loopF_mono {w : World} {n : Nat} : ∀ {m : Nat} {file : Str} {s : PS} {rest : List Str}
    {x : PS × Except PExc Unit}, loopF n w file s rest = some x → n ≤ m → loopF m w file s rest = some x := by
  induction n with
  | zero => intro m file s rest x h; simp [loopF] at h
  | succ n ih =>
    intro m file s rest x h hm
    obtain ⟨m, rfl⟩ : ∃ k, m = k + 1 := ⟨m - 1, by omega⟩
    have hm' : n ≤ m := by omega
    unfold loopF at h ⊢
    split at h
    · exact h
    · exact ih h hm'
    · exact h
    · rename_i s' rest' path line e
      split at h
      · rename_i e2; exact h
      · rename_i s1 lines e2
        split at h
        · simp at h
        · rename_i s2 e3 e4
          rw [ih e4 hm']
          exact h
        · rename_i s2 e4
          rw [ih e4 hm']
          exact ih h hm'

theorem loopF_det {w : World} {n m : Nat} {file : Str} {s : PS} {rest : List Str} {x y : PS × Except PExc Unit}
    (h1 : loopF n w file s rest = some x) (h2 : loopF m w file s rest = some y) : x = y := by
  have a := loopF_mono h1 (Nat.le_max_left n m)
  have b := loopF_mono h2 (Nat.le_max_right n m)
  rw [a] at b
  exact Option.some.inj b

/-- `parse_config` has at most one outcome. -/
theorem Parses.det {w : World} {s : PS} {file : Str} {s1 s2 : PS} {r1 r2 : Except PExc Unit}
    (h1 : Parses w s file s1 r1) (h2 : Parses w s file s2 r2) : s1 = s2 ∧ r1 = r2 := by
  obtain ⟨n, h1⟩ := h1
  obtain ⟨m, h2⟩ := h2
  unfold parseF at h1 h2
  split at h1
  · rename_i e
    rw [e] at h2
    simp only [Option.some.injEq, Prod.mk.injEq] at h1 h2
    exact ⟨h1.1.symm.trans h2.1, h1.2.symm.trans h2.2⟩
  · rename_i e
    rw [e] at h2
    have := loopF_det h1 h2
    simpa using this

/-! ### Sequences of iterations -/

/-- The loop of one file gets from one state to another. -/
inductive Steps (w : World) (file : Str) : PS → List Str → PS → List Str → Prop where
  | refl {s r} : Steps w file s r s r
  | more {s r s1 r1 s' r'} : item w file s r = .more s1 r1 → Steps w file s1 r1 s' r' → Steps w file s r s' r'
  | incl {s r s1 r1 path line s2 lines n s3 s' r'} : item w file s r = .incl s1 r1 path line →
      openFile w s1 path = (s2, .ok lines) → loopF n w path s2 lines = some (s3, .ok ()) →
      Steps w file { s3 with line := line } r1 s' r' → Steps w file s r s' r'

theorem Steps.trans {w : World} {file : Str} {a b c : PS} {ra rb rc : List Str} (h1 : Steps w file a ra b rb)
    (h2 : Steps w file b rb c rc) : Steps w file a ra c rc := by
  induction h1 with
  | refl => exact h2
  | more e _ ih => exact .more e (ih h2)
  | incl e1 e2 e3 _ ih => exact .incl e1 e2 e3 (ih h2)

theorem Steps.loop {w : World} {file : Str} {s s' : PS} {r r' : List Str} (h : Steps w file s r s' r') {n : Nat}
    {x : PS × Except PExc Unit} (hx : loopF n w file s' r' = some x) : ∃ m, loopF m w file s r = some x := by
  induction h with
  | refl => exact ⟨n, hx⟩
  | more e _ ih =>
    obtain ⟨m, hm⟩ := ih hx
    refine ⟨m + 1, ?_⟩
    unfold loopF
    rw [e]
    exact hm
  | @incl s r s1 r1 path line s2 lines k s3 s' r' e1 e2 e3 _ ih =>
    obtain ⟨m, hm⟩ := ih hx
    refine ⟨max m k + 1, ?_⟩
    unfold loopF
    rw [e1]
    simp only [e2]
    rw [loopF_mono e3 (Nat.le_max_right m k)]
    simp only
    exact loopF_mono hm (Nat.le_max_left m k)

/-! ### Matching states -/

/-- The config block under construction shows `e`. -/
structure CfgIs (h : Heap) (b : Nat) (e : Env) : Prop where
  wf : WF h
  blk : ∃ rb, h[b]? = some rb ∧ rb.parent = none ∧ (∀ k, rb.store.find? k = e.val k) ∧
    (∀ k, rb.ro.contains k = e.ro k) ∧ (∀ k, rb.defs.find? k = e.loc k) ∧
    ∀ k, rb.descr.find? k = (e.val k).map (fun _ => [])

theorem CfgIs.shows {h : Heap} {b : Nat} {e : Env} (c : CfgIs h b e) : Shows h b e := by
  obtain ⟨rb, h1, h2, h3, h4, h5, h6⟩ := c.blk
  intro k
  have v : ViewOf h b b [] := .root h1 h2
  refine ⟨?_, ?_, ?_, ?_, ?_⟩
  · rw [get_view c.wf v h1, List.nil_append, h3]; cases e.val k <;> rfl
  · rw [has_view c.wf v h1, List.nil_append, OMap.contains, h3]
  · simp only [isReadOnly, h1]; rw [h4]
  · simp [getLocation, h1, h5]
  · rw [desc_view c.wf v h1, List.nil_append, h6]; cases e.val k <;> rfl

/-- The stack of open blocks. -/
inductive Opened : List BlockCtx → List Str → Prop where
  | nil : Opened [] []
  | cons {b bs st} : b.prev = blockPrefix st → Opened bs st → Opened (b :: bs) (b.name :: st)

structure Sim (search : List Str) (s : PS) (inc st : List Str) (e : Env) : Prop where
  tok : s.tok = []
  incl : s.incl = inc
  blocks : Opened s.blocks st
  context : s.context = blockPrefix st
  count : s.fileCount = inc.length
  search : s.search = search
  cfg : CfgIs s.heap s.cfg e
  sym : ∀ k, s.symtab.find? k = e.sym k

theorem types_eq {w : World} {s : PS} {e : Env} (hc : CfgIs s.heap s.cfg e) (hs : ∀ k, s.symtab.find? k = e.sym k) :
    types w s = symbols w e := by
  have h1 : configLookup s.heap s.cfg = e.val := by
    funext k
    unfold configLookup
    rw [(hc.shows k).1]
    cases e.val k <;> rfl
  have h2 : (fun k => symLookup s.symtab k) = e.sym := by
    funext k
    rw [← hs]
    unfold symLookup OMap.contains
    cases s.symtab.find? k <;> rfl
  unfold types
  rw [h1, h2]
  rfl

theorem expand_eq {w : World} {s : PS} {e : Env} (hc : CfgIs s.heap s.cfg e) (hs : ∀ k, s.symtab.find? k = e.sym k)
    {x y : Str} (h : Expands (symbols w e) x y) : expandToken (types w s) x = y := by
  rw [types_eq hc hs]
  exact (C16_expand_is_one_pass _ _ _).2 h

theorem contains_cons (l : List Str) (k k' : Str) (b : Bool) :
    (if b = true then if l.contains k then l else k :: l else l).contains k' = (decide (k' = k) && b || l.contains k') := by
  cases b with
  | false => simp
  | true =>
    by_cases h : l.contains k = true
    · simp only [if_true, h]
      by_cases e : k' = k
      · subst e; rw [h]; simp
      · simp [e]
    · simp only [if_true]
      rw [if_neg h, List.contains_cons]
      by_cases e : k' = k
      · subst e; simp
      · simp [e]

/-- A definition that succeeds. -/
theorem assign_ok {w : World} {file : Str} {rel ro : Bool} {lhs rhs x v : Str} {s : PS} {rest : List Str} {e : Env}
    (hc : CfgIs s.heap s.cfg e) (hs : ∀ k, s.symtab.find? k = e.sym k) (hx : RhsText w e file rel rhs x)
    (hv : StripsTo x v) (hro : e.ro (s.context ++ lhs) = false) :
    ∃ h', assignStep w file rel ro lhs rhs s rest = .more { s with heap := h' } rest ∧
      CfgIs h' s.cfg (e.apply (.set file s.line (s.context ++ lhs) v ro)) := by
  obtain ⟨y, hy, rfl⟩ := hx
  obtain ⟨rb, h1, h2, h3, h4, h5, h6⟩ := hc.blk
  have vw : ViewOf s.heap s.cfg s.cfg [] := .root h1 h2
  generalize hval : (if rel = true then dirOf w file ++ c!"/" ++ y else y) = x at *
  have hset := set_view hc.wf vw h1 (s.context ++ lhs) x []
  rw [List.nil_append, h4, hro, if_neg (by simp)] at hset
  refine ⟨if ro then (markReadOnly (setLocation (s.heap.set s.cfg (rb.put (s.context ++ lhs) x [])) s.cfg (s.context ++ lhs) (file, (s.line : Int))).1 s.cfg (s.context ++ lhs)).1 else (setLocation (s.heap.set s.cfg (rb.put (s.context ++ lhs) x [])) s.cfg (s.context ++ lhs) (file, (s.line : Int))).1, ?_, ?_, ?_⟩
  · unfold assignStep
    simp only [expand_eq hc hs hy, hval, hset]
  · 
    have w1 : WF (s.heap.set s.cfg (rb.put (s.context ++ lhs) x [])) :=
      wf_prim (.put h1 h2 (by rw [h4]; exact hro)) hc.wf
    have w2 : WF (setLocation (s.heap.set s.cfg (rb.put (s.context ++ lhs) x [])) s.cfg (s.context ++ lhs) (file, (s.line : Int))).1 :=
      wf_prims (step_prims _ (.setLocation _ _ _)) w1
    split
    · exact wf_prims (step_prims _ (.markReadOnly _ _)) w2
    · exact w2
  · have hv' : trim x = v := (stripsTo_iff _ _).1 hv
    refine ⟨{ rb.put (s.context ++ lhs) x [] with
              defs := (rb.put (s.context ++ lhs) x []).defs.insert (s.context ++ lhs) (file, (s.line : Int))
              ro := if ro = true then if rb.ro.contains (s.context ++ lhs) then rb.ro else (s.context ++ lhs) :: rb.ro else rb.ro },
            ?_, ?_, ?_, ?_, ?_, ?_⟩
    · simp only [setLocation, set_same h1, markReadOnly]
      have hl := lt_of_some h1
      cases ro <;> simp [hl, Block.put]
    · exact h2
    · intro k
      show (rb.put (s.context ++ lhs) x []).store.find? k = _
      rw [put_find, h3]
      simp only [Env.apply, hv']
    · intro k
      rw [contains_cons, h4]
      rfl
    · intro k
      show OMap.find? (OMap.insert rb.defs _ _) k = _
      rw [OMap.find?_insert, h5]
      rfl
    · intro k
      show (rb.put (s.context ++ lhs) x []).descr.find? k = _
      rw [put_descr, h6, h6, if_pos rfl]
      simp only [Env.apply]
      by_cases ek : k = s.context ++ lhs
      · rw [if_pos ek, if_pos ek]; cases e.val (s.context ++ lhs) <;> rfl
      · rw [if_neg ek, if_neg ek]

/-- A definition of a read-only key. -/
theorem assign_ro {w : World} {file : Str} {rel ro : Bool} {lhs rhs x : Str} {s : PS} {rest : List Str} {e : Env}
    (hc : CfgIs s.heap s.cfg e) (hs : ∀ k, s.symtab.find? k = e.sym k) (hx : RhsText w e file rel rhs x)
    (hro : e.ro (s.context ++ lhs) = true) :
    assignStep w file rel ro lhs rhs s rest =
      .throw s (.config (.setRO (s.context ++ lhs) ((e.val (s.context ++ lhs)).getD []) x)) := by
  obtain ⟨y, hy, rfl⟩ := hx
  obtain ⟨rb, h1, h2, h3, h4, h5, h6⟩ := hc.blk
  have vw : ViewOf s.heap s.cfg s.cfg [] := .root h1 h2
  generalize hval : (if rel = true then dirOf w file ++ c!"/" ++ y else y) = x at *
  have hset := set_view hc.wf vw h1 (s.context ++ lhs) x []
  rw [List.nil_append, h4, hro, if_pos rfl] at hset
  unfold assignStep
  simp only [expand_eq hc hs hy, hval, hset]
  have : currentValue rb (s.context ++ lhs) = (e.val (s.context ++ lhs)).getD [] := by
    unfold currentValue
    rw [h3]
    cases e.val (s.context ++ lhs) <;> rfl
  rw [this]

/-! ### Simulation -/

/-- What simulating an `Exec` derivation gives. -/
def Simulated (w : World) (search : List Str) (file : Str) (inc : List Str) (s : PS) (rest : List Str) (tr : List Stmt) (r : Res) (e' : Env) : Prop :=
  match r with
  | .done st' => ∃ s' rest', Steps w file s rest s' rest' ∧ Lines s'.line rest' [] ∧ Sim search s' inc st' e' ∧
      s'.cfg = s.cfg ∧ s'.parseErr = (s.parseErr || tr.any Stmt.isError)
  | .thrown x => ∃ n s', loopF n w file s rest = some (s', .error x) ∧ s'.cfg = s.cfg ∧ CfgIs s'.heap s'.cfg e'

theorem Simulated.prepend {w : World} {search : List Str} {file : Str} {inc : List Str} {s s1 : PS} {rest rest1 : List Str}
    {r : Res} {t1 tr : List Stmt} {e' : Env} (hst : Steps w file s rest s1 rest1) (hk : s1.cfg = s.cfg)
    (hp : s1.parseErr = (s.parseErr || t1.any Stmt.isError)) (h : Simulated w search file inc s1 rest1 tr r e') :
    Simulated w search file inc s rest (t1 ++ tr) r e' := by
  cases r with
  | done st' =>
    obtain ⟨s', rest', h1, h2, h3, h4, h5⟩ := h
    exact ⟨s', rest', hst.trans h1, h2, h3, h4.trans hk, by rw [h5, hp, Bool.or_assoc, List.any_append]⟩
  | thrown x =>
    obtain ⟨n, s', h1, h2, h3⟩ := h
    obtain ⟨m, hm⟩ := hst.loop h1
    exact ⟨m, s', hm, h2.trans hk, h3⟩

theorem Simulated.prepend' {w : World} {search : List Str} {file : Str} {inc : List Str} {s s1 : PS} {rest rest1 : List Str}
    {r : Res} {tr : List Stmt} {e' : Env} (hst : Steps w file s rest s1 rest1) (hk : s1.cfg = s.cfg)
    (hp : s1.parseErr = s.parseErr) (h : Simulated w search file inc s1 rest1 tr r e') :
    Simulated w search file inc s rest tr r e' :=
  Simulated.prepend (t1 := []) hst hk (by simp [hp]) h

theorem flagErrors_any (file : Str) (n : Nat) (flags : List Str) :
    (flagErrors file n flags).any Stmt.isError = flags.any (¬ IsRO ·) := by
  induction flags with
  | nil => rfl
  | cons f fs ih =>
    unfold flagErrors at ih ⊢
    by_cases h : IsRO f
    · rw [List.filter_cons_of_neg (by simp [h]), ih]; simp [h]
    · rw [List.filter_cons_of_pos (by simp [h])]; simp [h, Stmt.isError]

theorem includeStep_ok {w : World} {s : PS} {rest : List Str} {path y : Str} (hy : expandToken (types w s) s.tok = y)
    (hp : path = resolveFileName w s.search s.incl y) (hr : ReadableFile w path) :
    includeStep w s rest = .incl (flush s) rest path s.line := by
  obtain ⟨h1, h2, h3⟩ := hr
  unfold includeStep
  simp only [hy, ← hp]
  rw [if_neg h1, if_neg, if_neg]
  · simp [fileIsDirectory, h3]
  · simp [fileExists, h1, h2]

theorem includeStep_missing {w : World} {s : PS} {rest : List Str} {path y : Str}
    (hy : expandToken (types w s) s.tok = y) (hp : path = resolveFileName w s.search s.incl y)
    (hr : path = [] ∨ w.readable path = false) :
    ∃ s', includeStep w s rest = .throw s' (.notFound y) ∧ s'.heap = s.heap ∧ s'.cfg = s.cfg := by
  unfold includeStep
  simp only [hy, ← hp]
  by_cases h1 : path = []
  · rw [if_pos h1]; exact ⟨s, rfl, rfl, rfl⟩
  · rw [if_neg h1, if_pos]
    · exact ⟨flush s, rfl, rfl, rfl⟩
    · rcases hr with h | h
      · exact absurd h h1
      · simp [fileExists, h]

theorem includeStep_dir {w : World} {s : PS} {rest : List Str} {path y : Str} (hy : expandToken (types w s) s.tok = y)
    (hp : path = resolveFileName w s.search s.incl y) (h1 : path ≠ []) (h2 : w.readable path = true)
    (h3 : w.isDir path = true) :
    includeStep w s rest = .throw (flush s) (.notFound path) := by
  unfold includeStep
  simp only [hy, ← hp]
  rw [if_neg h1, if_neg, if_pos]
  · simp [fileIsDirectory, h1, h3]
  · simp [fileExists, h1, h2]

theorem exec_sim {w : World} {search : List Str} {inc st : List Str}
    {ds : List (Nat × Directive)} {e : Env} {tr : List Stmt} {r : Res} {e' : Env}
    (hx : Exec w search inc st ds e tr r e') :
    ∀ (file : Str) (inc0 : List Str), inc = file :: inc0 → ∀ (s : PS) (rest : List Str),
      Sim search s inc st e → Lines s.line rest ds → Simulated w search file inc s rest tr r e' := by
  induction hx with
  | nil =>
    intro file inc0 hinc s rest hs hl
    exact ⟨s, rest, .refl, hl, hs, rfl, by simp⟩
  | @bad file inc0 st n ds e tr r e' _ ih =>
    intro file' inc0' hinc s rest hs hl
    cases hinc
    obtain ⟨rest', hl', hi⟩ := item_bad (w := w) (file := file) hs.tok hl
    exact Simulated.prepend (t1 := [.error file n]) (.more hi .refl) rfl (by simp [Stmt.isError])
      (ih file inc0 rfl _ rest' ⟨rfl, hs.2, hs.3, hs.4, hs.5, hs.6, hs.7, hs.8⟩ hl')
  | @entry file inc0 st n rel key flags rhs ds e x v tr r e' hrhs hv hro _ ih =>
    intro file' inc0' hinc s rest hs hl
    cases hinc
    obtain ⟨rest', hl', hi⟩ := item_entry_line (w := w) (file := file) hs.tok hl
    obtain ⟨h', ha, hc⟩ := assign_ok (w := w) (file := file) (rel := rel) (ro := flags.any (IsRO ·)) (lhs := key) (rhs := rhs)
      (s := { s with line := n, tok := [], parseErr := s.parseErr || flags.any (¬ IsRO ·) }) (rest := rest')
      hs.cfg hs.sym hrhs hv (by simp only; rw [hs.context]; exact hro)
    rw [ha] at hi
    simp only [hs.context] at hc
    have := Simulated.prepend (t1 := flagErrors file n flags ++ [.set file n (blockPrefix st ++ key) v (flags.any (IsRO ·))])
      (.more hi .refl) rfl (by rw [List.any_append, flagErrors_any]; simp [Stmt.isError])
      (ih file inc0 rfl _ rest' ⟨rfl, hs.2, hs.3, hs.4, hs.5, hs.6, hc, hs.8⟩ hl')
    simpa using this
  | @protectedEntry file inc0 st n rel key flags rhs ds e x hrhs hro =>
    intro file' inc0' hinc s rest hs hl
    cases hinc
    obtain ⟨rest', hl', hi⟩ := item_entry_line (w := w) (file := file) hs.tok hl
    have ha := assign_ro (w := w) (file := file) (rel := rel) (ro := flags.any (IsRO ·)) (lhs := key) (rhs := rhs)
      (s := { s with line := n, tok := [], parseErr := s.parseErr || flags.any (¬ IsRO ·) }) (rest := rest')
      hs.cfg hs.sym hrhs (by simp only; rw [hs.context]; exact hro)
    rw [ha] at hi
    simp only [hs.context] at hi
    refine ⟨1, { s with line := n, tok := [], parseErr := s.parseErr || flags.any (¬ IsRO ·), context := blockPrefix st }, ?_, rfl, hs.cfg⟩
    unfold loopF
    rw [hi]
  | @sym file inc0 st n name flags rhs ds e x tr r e' hx _ ih =>
    intro file' inc0' hinc s rest hs hl
    cases hinc
    obtain ⟨rest', hl', hi⟩ := item_sym_line (w := w) (file := file) hs.tok hl
    rw [expand_eq hs.cfg hs.sym hx] at hi
    have := Simulated.prepend (t1 := flagErrors file n flags ++ [.sym name x])
      (.more hi .refl) rfl (by rw [List.any_append, flagErrors_any]; simp [Stmt.isError])
      (ih file inc0 rfl _ rest' ⟨rfl, hs.2, hs.3, hs.4, hs.5, hs.6, ?_, ?_⟩ hl')
    · simpa using this
    · obtain ⟨w1, rb, a1, a2, a3⟩ := hs.cfg
      exact ⟨w1, rb, a1, a2, a3⟩
    · intro k
      simp only [symStep, OMap.find?_insert, hs.sym, Env.apply]
  | @block inc st n name ds e tr r e' _ ih =>
    intro file inc0 hinc s rest hs hl
    obtain ⟨rest', hl', hi⟩ := item_block_line (w := w) (file := file) hs.tok hl
    exact Simulated.prepend' (.more hi .refl) rfl rfl
      (ih file inc0 hinc _ rest' ⟨rfl, hs.2, .cons hs.context hs.3, by simp [blockPrefix, hs.context], hs.5, hs.6, hs.7, hs.8⟩ hl')
  | @endblock inc name st n ds e tr r e' _ ih =>
    intro file inc0 hinc s rest hs hl
    obtain ⟨rest', hl', hi⟩ := item_end_line (w := w) (file := file) hs.tok hl
    have hb := hs.blocks
    revert hb
    cases hbl : s.blocks with
    | nil => intro hb; cases hb
    | cons b bs =>
      intro hb
      cases hb with
      | cons hp ho =>
        rw [hbl] at hi
        exact Simulated.prepend' (.more hi .refl) rfl rfl
          (ih file inc0 hinc _ rest' ⟨rfl, hs.2, ho, hp, hs.5, hs.6, hs.7, hs.8⟩ hl')
  | @strayEnd file inc0 n ds e =>
    intro file' inc0' hinc s rest hs hl
    cases hinc
    obtain ⟨rest', hl', hi⟩ := item_end_line (w := w) (file := file) hs.tok hl
    have : s.blocks = [] := by
      have hb := hs.blocks
      revert hb
      cases s.blocks with
      | nil => intro _; rfl
      | cons b bs => intro hb; cases hb
    rw [this] at hi
    simp only at hi
    refine ⟨1, { s with line := n, tok := [] }, ?_, rfl, hs.cfg⟩
    simp only [loopF, hi, this]
  | @incl inc st n name y path c ls ds' ds e t1 st1 e1 t2 r e2 hy hp hr hc htxt hls _ _ ih1 ih2 =>
    intro file inc0 hinc s rest hs hl
    obtain ⟨rest', hl', hi⟩ := item_incl_line (w := w) (file := file) hs.tok hl
    rw [includeStep_ok (path := path) (y := y) (expand_eq (s := { s with line := n, tok := name }) hs.cfg hs.sym hy)
      (by rw [hp, hs.search, hs.incl]) hr] at hi
    have ho : openFile w (flush { s with line := n, tok := name }) path =
        ({ s with tok := [], line := 0, fileCount := s.fileCount + 1, incl := path :: s.incl }, .ok ls) := by
      unfold openFile
      rw [hc]
      simp only [fileLines_of htxt, flush]
    have hs1 : Sim search { s with tok := [], line := 0, fileCount := s.fileCount + 1, incl := path :: s.incl }
        (path :: inc) st e :=
      ⟨rfl, by simp [hs.incl], hs.3, hs.context, by simp [hs.count], hs.search, hs.cfg, hs.sym⟩
    obtain ⟨s2, rest2, h1, h2, h3, h4, h5⟩ := ih1 path inc rfl _ ls hs1 (by simpa using hls)
    have hlen : inc.length ≠ 0 := by rw [hinc]; simp
    have hcnt : s2.fileCount - 1 = inc.length := by rw [h3.count]; simp
    have hin : s2.incl.drop 1 = inc := by rw [h3.incl]; simp
    have hfin : loopF 1 w path s2 rest2 =
        some ({ s2 with line := s2.line + rest2.length, fileCount := inc.length, incl := inc }, .ok ()) := by
      unfold loopF
      rw [item_eof h3.tok h2]
      simp only [finish]
      rw [hcnt, hin, if_neg]
      omega
    obtain ⟨k, hk⟩ := h1.loop hfin
    have hst : Steps w file s rest { s2 with line := n, fileCount := inc.length, incl := inc } rest' :=
      .incl hi ho hk .refl
    exact Simulated.prepend hst h4 h5
      (ih2 file inc0 hinc _ rest' ⟨h3.1, rfl, h3.3, h3.4, rfl, h3.6, h3.7, h3.8⟩ hl')
  | @inclThrows inc st n name y path c ls ds' ds e t1 x e1 hy hp hr hc htxt hls _ ih =>
    intro file inc0 hinc s rest hs hl
    obtain ⟨rest', hl', hi⟩ := item_incl_line (w := w) (file := file) hs.tok hl
    rw [includeStep_ok (path := path) (y := y) (expand_eq (s := { s with line := n, tok := name }) hs.cfg hs.sym hy)
      (by rw [hp, hs.search, hs.incl]) hr] at hi
    have ho : openFile w (flush { s with line := n, tok := name }) path =
        ({ s with tok := [], line := 0, fileCount := s.fileCount + 1, incl := path :: s.incl }, .ok ls) := by
      unfold openFile
      rw [hc]
      simp only [fileLines_of htxt, flush]
    have hs1 : Sim search { s with tok := [], line := 0, fileCount := s.fileCount + 1, incl := path :: s.incl }
        (path :: inc) st e :=
      ⟨rfl, by simp [hs.incl], hs.3, hs.context, by simp [hs.count], hs.search, hs.cfg, hs.sym⟩
    obtain ⟨k, s', h1, h2, h3⟩ := ih path inc rfl _ ls hs1 (by simpa using hls)
    refine ⟨k + 1, s', ?_, h2, h3⟩
    unfold loopF
    rw [hi]
    simp only [ho, h1]
  | @inclMissing inc st n name y path ds e hy hp hr =>
    intro file inc0 hinc s rest hs hl
    obtain ⟨rest', hl', hi⟩ := item_incl_line (w := w) (file := file) hs.tok hl
    obtain ⟨s', h1, h2, h3⟩ := includeStep_missing (s := { s with line := n, tok := name }) (rest := rest')
      (path := path) (y := y) (expand_eq (s := { s with line := n, tok := name }) hs.cfg hs.sym hy)
      (by rw [hp, hs.search, hs.incl]) hr
    rw [h1] at hi
    refine ⟨1, s', ?_, h3, ?_⟩
    · unfold loopF
      rw [hi]
    · rw [h2, h3]; exact hs.cfg
  | @inclNoFile inc st n name y path ds e hy hp h1 h2 h3 =>
    intro file inc0 hinc s rest hs hl
    obtain ⟨rest', hl', hi⟩ := item_incl_line (w := w) (file := file) hs.tok hl
    cases hd : w.isDir path with
    | true =>
      rw [includeStep_dir (path := path) (y := y) (expand_eq (s := { s with line := n, tok := name }) hs.cfg hs.sym hy)
        (by rw [hp, hs.search, hs.incl]) h1 h2 hd] at hi
      refine ⟨1, flush { s with line := n, tok := name }, ?_, rfl, hs.cfg⟩
      unfold loopF
      rw [hi]
    | false =>
      rw [includeStep_ok (path := path) (y := y) (expand_eq (s := { s with line := n, tok := name }) hs.cfg hs.sym hy)
        (by rw [hp, hs.search, hs.incl]) ⟨h1, h2, hd⟩] at hi
      have hc : w.content path = none := by
        rcases h3 with h | h
        · rw [hd] at h; simp at h
        · exact h
      refine ⟨1, { s with line := 0, tok := [] }, ?_, rfl, hs.cfg⟩
      unfold loopF
      rw [hi]
      simp only [openFile, hc, flush]

/-- Reading the main file to its end. -/
theorem main_sim {w : World} {search : List Str} {file : Str} {ds : List (Nat × Directive)} {e : Env} {st : List Str}
    {tr : List Stmt} {r : Res} {e' : Env} (hx : Exec w search [file] st ds e tr r e') {s : PS} {rest : List Str}
    (hs : Sim search s [file] st e) (hl : Lines s.line rest ds) (hpe : s.parseErr = false) :
    ∃ n s', loopF n w file s rest = some (s', r.outcome file tr) ∧ s'.cfg = s.cfg ∧
        CfgIs s'.heap s'.cfg e' := by
  have := exec_sim hx file [] rfl s rest hs hl
  cases r with
  | thrown x =>
    obtain ⟨n, s', h1, h2, h3⟩ := this
    exact ⟨n, s', h1, h2, h3⟩
  | done st' =>
    obtain ⟨s', rest', h1, h2, h3, h4, h5⟩ := this
    rw [hpe, Bool.false_or] at h5
    have hcnt : s'.fileCount - 1 = 0 := by rw [h3.count]; simp
    have hfin : ∃ s'', loopF 1 w file s' rest' = some (s'', (Res.done st').outcome file tr) ∧
        s''.cfg = s'.cfg ∧ s''.heap = s'.heap := by
      unfold loopF
      rw [item_eof h3.tok h2]
      simp only [finish, hcnt, if_true, h5, Res.outcome]
      have hb := h3.blocks
      revert hb
      cases s'.blocks with
      | nil =>
        intro hb; cases hb
        cases tr.any Stmt.isError <;> exact ⟨_, rfl, rfl, rfl⟩
      | cons bb bs =>
        intro hb
        cases hb
        cases tr.any Stmt.isError <;> exact ⟨_, rfl, rfl, rfl⟩
    obtain ⟨s'', hf, hc1, hc2⟩ := hfin
    obtain ⟨m, hm⟩ := h1.loop hf
    exact ⟨m, s'', hm, hc1.trans h4, by rw [hc1, hc2]; exact h3.cfg⟩

theorem fresh_cfg {h : Heap} (hw : WF h) (search : List Str) : CfgIs (fresh h search).heap (fresh h search).cfg Env.empty := by
  refine ⟨wf_prims (step_prims h (.emptyConfig [])) hw, mkBlock [] none, ?_, rfl, ?_, ?_, ?_, ?_⟩
  · simp [fresh, emptyConfig]
  · intro k; rfl
  · intro k; rfl
  · intro k; rfl
  · intro k; rfl

/-- The parser on a described document. -/
theorem parse_main {w : World} {search : List Str} {file c : Str} {ls : List Str} {ds : List (Nat × Directive)}
    {tr : List Stmt} {r : Res} {e' : Env} (hc : w.content file = some c) (ht : TextIs c ls) (hl : Lines 0 ls ds)
    (hm : Exec w search [file] [] ds Env.empty tr r e') {h : Heap} (hw : WF h) :
    ∃ s', Parses w (fresh h search) file s' (r.outcome file tr) ∧ s'.cfg = h.length ∧ CfgIs s'.heap s'.cfg e' := by
  have hcfg := fresh_cfg hw search
  obtain ⟨n, s', h1, h2, h3⟩ := main_sim hm
    (s := { fresh h search with tok := [], line := 0, fileCount := (fresh h search).fileCount + 1, incl := file :: (fresh h search).incl })
    (rest := ls) ⟨rfl, rfl, .nil, rfl, rfl, rfl, hcfg, fun k => rfl⟩ hl rfl
  refine ⟨s', ⟨n, ?_⟩, h2, h3⟩
  unfold parseF openFile
  rw [hc]
  simp only [fileLines_of ht]
  rw [h1]

/-! ### Every terminating run is described -/

theorem expands_total (t : Types) (x : Str) : ∃ y, Expands t x y := ⟨_, (C16_expand_is_one_pass _ _ _).1 rfl⟩

theorem strips_total (x : Str) : ∃ v, StripsTo x v := ⟨_, (stripsTo_iff _ _).2 rfl⟩

theorem loop_more {w : World} {n : Nat} {file : Str} {s s1 : PS} {rest rest1 : List Str} {x : PS × Except PExc Unit}
    (hi : item w file s rest = .more s1 rest1) (hx : loopF (n + 1) w file s rest = some x) :
    loopF n w file s1 rest1 = some x := by
  unfold loopF at hx
  rw [hi] at hx
  exact hx

/-- The loop of a file that terminates corresponds to an `Exec` derivation. -/
theorem exec_total {w : World} (hd : Described w) {search : List Str} : ∀ (n : Nat) (file : Str) (inc0 st : List Str)
    (s : PS) (rest : List Str) (e : Env) (ds : List (Nat × Directive)) (x : PS × Except PExc Unit),
    loopF n w file s rest = some x → Sim search s (file :: inc0) st e → Lines s.line rest ds →
    ∃ tr r e', Exec w search (file :: inc0) st ds e tr r e' := by
  intro n
  induction n with
  | zero => intro file inc0 st s rest e ds x hx _ _; simp [loopF] at hx
  | succ n ih =>
    intro file inc0 st s rest e ds x hx hs hl
    cases ds with
    | nil => exact ⟨_, _, _, .nil⟩
    | cons d ds =>
      obtain ⟨m, d⟩ := d
      cases d with
      | bad =>
        obtain ⟨rest', hl', hi⟩ := item_bad (w := w) (file := file) hs.tok hl
        have hx := loop_more hi hx
        obtain ⟨tr, r, e', h⟩ := ih file inc0 st _ rest' e ds x hx ⟨rfl, hs.2, hs.3, hs.4, hs.5, hs.6, hs.7, hs.8⟩ hl'
        exact ⟨_, _, _, .bad h⟩
      | entry rel key flags rhs =>
        obtain ⟨y, hy⟩ := expands_total (symbols w e) rhs
        have hrhs : RhsText w e file rel rhs _ := ⟨y, hy, rfl⟩
        generalize (if rel = true then dirOf w file ++ c!"/" ++ y else y) = z at hrhs
        cases hro : e.ro (blockPrefix st ++ key) with
        | true => exact ⟨_, _, _, .protectedEntry hrhs hro⟩
        | false =>
          obtain ⟨v, hv⟩ := strips_total z
          obtain ⟨rest', hl', hi⟩ := item_entry_line (w := w) (file := file) hs.tok hl
          obtain ⟨h', ha, hc⟩ := assign_ok (w := w) (file := file) (rel := rel) (ro := flags.any (IsRO ·)) (lhs := key) (rhs := rhs)
            (s := { s with line := m, tok := [], parseErr := s.parseErr || flags.any (¬ IsRO ·) }) (rest := rest')
            hs.cfg hs.sym hrhs hv (by simp only; rw [hs.context]; exact hro)
          rw [ha] at hi
          simp only [hs.context] at hc
          have hx := loop_more hi hx
          obtain ⟨tr, r, e', h⟩ := ih file inc0 st _ rest' _ ds x hx ⟨rfl, hs.2, hs.3, hs.4, hs.5, hs.6, hc, hs.8⟩ hl'
          exact ⟨_, _, _, .entry hrhs hv hro h⟩
      | sym name flags rhs =>
        obtain ⟨y, hy⟩ := expands_total (symbols w e) rhs
        obtain ⟨rest', hl', hi⟩ := item_sym_line (w := w) (file := file) hs.tok hl
        rw [expand_eq hs.cfg hs.sym hy] at hi
        have hx := loop_more hi hx
        obtain ⟨tr, r, e', h⟩ := ih file inc0 st _ rest' (e.apply (.sym name y)) ds x hx ⟨rfl, hs.2, hs.3, hs.4, hs.5, hs.6, by
          obtain ⟨w1, rb, a1, a2, a3⟩ := hs.cfg
          exact ⟨w1, rb, a1, a2, a3⟩, by
          intro k
          simp only [symStep, OMap.find?_insert, hs.sym, Env.apply]⟩ hl'
        exact ⟨_, _, _, .sym hy h⟩
      | block name =>
        obtain ⟨rest', hl', hi⟩ := item_block_line (w := w) (file := file) hs.tok hl
        have hx := loop_more hi hx
        obtain ⟨tr, r, e', h⟩ := ih file inc0 (name :: st) _ rest' e ds x hx ⟨rfl, hs.2, .cons hs.context hs.3, by simp [blockPrefix, hs.context], hs.5, hs.6, hs.7, hs.8⟩ hl'
        exact ⟨_, _, _, .block h⟩
      | endblock =>
        obtain ⟨rest', hl', hi⟩ := item_end_line (w := w) (file := file) hs.tok hl
        have hb := hs.blocks
        revert hb
        cases hbl : s.blocks with
        | nil => intro hb; cases hb; exact ⟨_, _, _, .strayEnd⟩
        | cons b bs =>
          intro hb
          cases hb with
          | cons hp ho =>
            rw [hbl] at hi
            have hx := loop_more hi hx
            obtain ⟨tr, r, e', h⟩ := ih file inc0 _ _ rest' e ds x hx ⟨rfl, hs.2, ho, hp, hs.5, hs.6, hs.7, hs.8⟩ hl'
            exact ⟨_, _, _, .endblock h⟩
      | incl name =>
        obtain ⟨y, hy⟩ := expands_total (symbols w e) name
        obtain ⟨rest', hl', hi⟩ := item_incl_line (w := w) (file := file) hs.tok hl
        generalize hp : resolveFileName w search (file :: inc0) y = path
        by_cases hmiss : path = [] ∨ w.readable path = false
        · exact ⟨_, _, _, .inclMissing hy hp.symm hmiss⟩
        · have h1 : path ≠ [] := fun h => hmiss (.inl h)
          have h2 : w.readable path = true := by
            cases h : w.readable path with
            | true => rfl
            | false => exact absurd (.inr h) hmiss
          by_cases hno : w.isDir path = true ∨ w.content path = none
          · exact ⟨_, _, _, .inclNoFile hy hp.symm h1 h2 hno⟩
          · have h3 : w.isDir path = false := by
              cases h : w.isDir path with
              | false => rfl
              | true => exact absurd (.inl h) hno
            cases hc : w.content path with
            | none => exact absurd (.inr hc) hno
            | some c =>
              obtain ⟨ls, ds', ht, hls⟩ := hd path c hc
              have hr : ReadableFile w path := ⟨h1, h2, h3⟩
              rw [includeStep_ok (path := path) (y := y) (expand_eq (s := { s with line := m, tok := name }) hs.cfg hs.sym hy)
                (by rw [← hp, hs.search, hs.incl]) hr] at hi
              have ho : openFile w (flush { s with line := m, tok := name }) path =
                  ({ s with tok := [], line := 0, fileCount := s.fileCount + 1, incl := path :: s.incl }, .ok ls) := by
                unfold openFile
                rw [hc]
                simp only [fileLines_of ht, flush]
              have hs1 : Sim search { s with tok := [], line := 0, fileCount := s.fileCount + 1, incl := path :: s.incl }
                  (path :: file :: inc0) st e :=
                ⟨rfl, by simp [hs.incl], hs.3, hs.context, by simp [hs.count], hs.search, hs.cfg, hs.sym⟩
              unfold loopF at hx
              rw [hi] at hx
              simp only [ho] at hx
              cases hin : loopF n w path { s with tok := [], line := 0, fileCount := s.fileCount + 1, incl := path :: s.incl } ls with
              | none => rw [hin] at hx; simp at hx
              | some z =>
                obtain ⟨t1, r1, e1, hx1⟩ := ih path (file :: inc0) st _ ls e ds' z hin hs1 hls
                cases r1 with
                | thrown q => exact ⟨_, _, _, .inclThrows hy hp.symm hr hc ht hls hx1⟩
                | done st1 =>
                  obtain ⟨s2, rest2, g1, g2, g3, g4, g5⟩ := exec_sim hx1 path _ rfl _ ls hs1 hls
                  have hcnt : s2.fileCount - 1 = ((file :: inc0).length : Int) := by rw [g3.count]; simp
                  have hdrop : s2.incl.drop 1 = file :: inc0 := by rw [g3.incl]; simp
                  have hfin : loopF 1 w path s2 rest2 =
                      some ({ s2 with line := s2.line + rest2.length, fileCount := ((file :: inc0).length : Int), incl := file :: inc0 }, .ok ()) := by
                    unfold loopF
                    rw [item_eof g3.tok g2]
                    simp only [finish]
                    rw [hcnt, hdrop, if_neg]
                    simp only [List.length_cons]
                    omega
                  obtain ⟨k, hk⟩ := g1.loop hfin
                  have hz := loopF_det hin hk
                  rw [hin, hz] at hx
                  simp only at hx
                  obtain ⟨t2, r2, e2, hx2⟩ := ih file inc0 st1 _ rest' e1 ds x hx ⟨g3.1, rfl, g3.3, g3.4, rfl, g3.6, g3.7, g3.8⟩ hl'
                  exact ⟨_, _, _, .incl hy hp.symm hr hc ht hls hx1 hx2⟩

/-- Every terminating parse of described files follows the specification. -/
theorem parse_described {w : World} (hd : Described w) {search : List Str} {file c : Str} {ls : List Str}
    {ds : List (Nat × Directive)} (hc : w.content file = some c) (ht : TextIs c ls) (hl : Lines 0 ls ds)
    {h : Heap} (hw : WF h) {s' : PS} {o : Except PExc Unit} (hp : Parses w (fresh h search) file s' o) :
    ∃ tr r e', Exec w search [file] [] ds Env.empty tr r e' ∧ o = r.outcome file tr ∧ s'.cfg = h.length ∧
      CfgIs s'.heap s'.cfg e' := by
  obtain ⟨n, hn⟩ := hp
  have hn' := hn
  unfold parseF openFile at hn'
  rw [hc] at hn'
  simp only [fileLines_of ht] at hn'
  have hcfg := fresh_cfg hw search
  obtain ⟨tr, r, e', hx⟩ := exec_total hd n file [] [] _ ls Env.empty ds _ hn'
    ⟨rfl, rfl, .nil, rfl, rfl, rfl, hcfg, fun k => rfl⟩ hl
  obtain ⟨s2, h1, h2, h3⟩ := parse_main hc ht hl hx hw
  obtain ⟨e1, e2⟩ := Parses.det ⟨n, hn⟩ h1
  subst e1
  exact ⟨tr, r, e', hx, e2, h2, h3⟩

end Vital.Parser
