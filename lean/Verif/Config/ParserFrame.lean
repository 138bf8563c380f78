import Verif.Config.ParserText
/-
  A parse only performs set_value, set_location and mark_read_only on its own block.
-/
namespace Vital.Parser
open Vital Vital.Config Vital.Expand Vital.Sys

/-- A call made on block `c` by a parser. -/
def OnBlock (c : Nat) : Op → Prop
  | .setValue b _ _ _ => b = c
  | .markReadOnly b _ => b = c
  | .setLocation b _ _ => b = c
  | _ => False

/-- The state changed only by calls on the parser's block. -/
def Wrote (s s' : PS) : Prop :=
  s'.cfg = s.cfg ∧ ∃ ops : List Op, (∀ o ∈ ops, OnBlock s.cfg o) ∧ s'.heap = ops.foldl step s.heap

theorem Wrote.same {s s' : PS} (h1 : s'.cfg = s.cfg) (h2 : s'.heap = s.heap) : Wrote s s' := ⟨h1, [], by simp, h2⟩

theorem Wrote.trans {a b c : PS} (h1 : Wrote a b) (h2 : Wrote b c) : Wrote a c := by
  obtain ⟨e1, o1, p1, q1⟩ := h1
  obtain ⟨e2, o2, p2, q2⟩ := h2
  refine ⟨e2.trans e1, o1 ++ o2, ?_, by rw [List.foldl_append, ← q1, q2]⟩
  intro o ho
  rcases List.mem_append.1 ho with ho | ho
  · exact p1 o ho
  · rw [← e1]; exact p2 o ho

theorem fill_keeps (s : PS) (rest : List Str) : (∀ s', (fill s rest).1 = some s' → s'.cfg = s.cfg ∧ s'.heap = s.heap) ∧
    (fill s rest).2.1.cfg = s.cfg ∧ (fill s rest).2.1.heap = s.heap := by
  unfold fill
  split
  · split <;> simp
  · simp

theorem getToken_keeps (s : PS) (rest : List Str) : Wrote s (getToken s rest).2.1 := by
  unfold getToken
  have h := fill_keeps s rest
  split
  · rename_i he; rw [he] at h; exact .same h.2.1 h.2.2
  · rename_i he; rw [he] at h
    have := h.1 _ rfl
    exact .same this.1 this.2

theorem flagLoop_keeps (n : Nat) : ∀ (t : Token) (s : PS) (rest : List Str) (ro : Bool), Wrote s (flagLoop n t s rest ro).2.2.1 := by
  induction n with
  | zero => intro t s rest ro; exact .same rfl rfl
  | succ n ih =>
    intro t s rest ro
    unfold flagLoop
    split
    · simp only
      have h2 := getToken_keeps { s with parseErr := s.parseErr || !decide (c!"[RO]" <:+: t.val.map toUpper) } rest
      generalize getToken { s with parseErr := s.parseErr || !decide (c!"[RO]" <:+: t.val.map toUpper) } rest = g at h2
      obtain ⟨t2, s2, r2⟩ := g
      exact Wrote.trans (Wrote.trans (Wrote.same rfl rfl) h2) (ih _ _ _ _)
    · exact .same rfl rfl

def Step.state : Step → PS
  | .eof s => s
  | .more s _ => s
  | .incl s _ _ _ => s
  | .throw s _ => s

theorem syntaxError_keeps (s : PS) (rest : List Str) : Wrote s (syntaxError s rest).state := .same rfl rfl

theorem assign_keeps (w : World) (file : Str) (rel ro : Bool) (lhs rhs : Str) (s : PS) (rest : List Str) :
    Wrote s (assignStep w file rel ro lhs rhs s rest).state := by
  unfold assignStep
  simp only
  generalize hv : (if rel = true then dirOf w file ++ c!"/" ++ expandToken (types w s) rhs else expandToken (types w s) rhs) = v
  generalize hs : setValue s.heap s.cfg (s.context ++ lhs) v [] = r
  obtain ⟨h, o⟩ := r
  have e1 : h = step s.heap (.setValue s.cfg (s.context ++ lhs) v []) := by simp [step, hs]
  cases o with
  | error e => exact ⟨rfl, [.setValue s.cfg (s.context ++ lhs) v []], by simp [OnBlock], e1⟩
  | ok u =>
    cases ro with
    | false =>
      exact ⟨rfl, [.setValue s.cfg (s.context ++ lhs) v [], .setLocation s.cfg (s.context ++ lhs) (file, (s.line : Int))],
        by simp [OnBlock], by subst e1; rfl⟩
    | true =>
      exact ⟨rfl, [.setValue s.cfg (s.context ++ lhs) v [], .setLocation s.cfg (s.context ++ lhs) (file, (s.line : Int)),
        .markReadOnly s.cfg (s.context ++ lhs)], by simp [OnBlock], by subst e1; rfl⟩

theorem define_keeps (w : World) (file : Str) (rel : Bool) (t : Token) (s : PS) (rest : List Str) :
    Wrote s (defineStep w file rel t s rest).state := by
  unfold defineStep
  split
  · have h1 := getToken_keeps s rest
    generalize getToken s rest = g at h1
    obtain ⟨t1, s1, r1⟩ := g
    simp only at h1 ⊢
    have h2 := flagLoop_keeps (textLeft s1 r1 + 1) t1 s1 r1 false
    generalize flagLoop (textLeft s1 r1 + 1) t1 s1 r1 false = g at h2
    obtain ⟨ro, t2, s2, r2⟩ := g
    simp only at h2 ⊢
    have h3 := h1.trans h2
    cases t2.ty
    case assign => exact h3.trans (assign_keeps w file rel ro t.val t2.val s2 r2)
    case localAssign => exact h3.trans (.same rfl rfl)
    all_goals exact h3.trans (syntaxError_keeps s2 r2)
  · exact syntaxError_keeps s rest

theorem item_keeps (w : World) (file : Str) (s : PS) (rest : List Str) : Wrote s (item w file s rest).state := by
  unfold item
  have h1 := getToken_keeps s rest
  generalize getToken s rest = g at h1
  obtain ⟨t1, s1, r1⟩ := g
  simp only at h1 ⊢
  split
  · exact h1
  split
  · refine h1.trans ?_
    unfold includeStep
    simp only
    split
    · exact .same rfl rfl
    split
    · exact .same rfl rfl
    split
    · exact .same rfl rfl
    · exact .same rfl rfl
  split
  · refine h1.trans ?_
    unfold blockStep
    have h2 := getToken_keeps s1 r1
    generalize getToken s1 r1 = g at h2
    obtain ⟨t2, s2, r2⟩ := g
    simp only at h2 ⊢
    split
    · exact h2.trans (.same rfl rfl)
    · exact h2.trans (syntaxError_keeps s2 r2)
  split
  · refine h1.trans ?_
    unfold endblockStep
    split <;> exact .same rfl rfl
  split
  · have h2 := getToken_keeps s1 r1
    generalize getToken s1 r1 = g at h2
    obtain ⟨t2, s2, r2⟩ := g
    simp only at h2 ⊢
    exact (h1.trans h2).trans (define_keeps w file true t2 s2 r2)
  · exact h1.trans (define_keeps w file false t1 s1 r1)

theorem openFile_keeps (w : World) (s : PS) (file : Str) : Wrote s (openFile w s file).1 := by
  unfold openFile
  split <;> exact .same rfl rfl

theorem finish_keeps (s : PS) (file : Str) : Wrote s (finish s file).1 := by
  unfold finish
  simp only
  split
  · split <;> exact .same rfl rfl
  · exact .same rfl rfl

theorem loop_keeps (w : World) (n : Nat) : ∀ (file : Str) (s : PS) (rest : List Str) (s' : PS) (o : Except PExc Unit),
    loopF n w file s rest = some (s', o) → Wrote s s' := by
  induction n with
  | zero => intro file s rest s' o h; cases h
  | succ n ih =>
    intro file s rest s' o h
    unfold loopF at h
    have hi := item_keeps w file s rest
    cases he : item w file s rest with
    | eof s1 =>
      rw [he] at hi h
      simp only [Option.some.injEq] at h
      have hf := finish_keeps s1 file
      rw [h] at hf
      exact hi.trans hf
    | more s1 r1 =>
      rw [he] at hi h
      exact hi.trans (ih _ _ _ _ _ h)
    | throw s1 e =>
      rw [he] at hi h
      cases h
      exact hi
    | incl s1 r1 path line =>
      rw [he] at hi h
      simp only at h
      have hf := openFile_keeps w s1 path
      generalize openFile w s1 path = g at hf h
      obtain ⟨s2, o2⟩ := g
      cases o2 with
      | error e => cases h; exact hi.trans hf
      | ok lines =>
        simp only at h
        cases hl : loopF n w path s2 lines with
        | none => rw [hl] at h; cases h
        | some p =>
          obtain ⟨s3, o3⟩ := p
          have h3 := (hi.trans hf).trans (ih _ _ _ _ _ hl)
          rw [hl] at h
          cases o3 with
          | error e => cases h; exact h3
          | ok u =>
            simp only at h
            have h4 := ih _ _ _ _ _ h
            exact (h3.trans (.same rfl rfl)).trans h4

theorem Parses.wrote {w : World} {s s' : PS} {file : Str} {o : Except PExc Unit} (h : Parses w s file s' o) : Wrote s s' := by
  obtain ⟨n, h⟩ := h
  unfold parseF at h
  have hf := openFile_keeps w s file
  generalize openFile w s file = g at hf h
  obtain ⟨s2, o2⟩ := g
  cases o2 with
  | error e => cases h; exact hf
  | ok lines => exact hf.trans (loop_keeps w n _ _ _ _ _ h)

theorem Wrote.reachable {s s' : PS} (h : Wrote s s') (hr : Reachable s.heap) : Reachable s'.heap := by
  obtain ⟨_, ops, _, e⟩ := h
  obtain ⟨os, e0⟩ := hr
  exact ⟨os ++ ops, by rw [e, e0]; simp [run, List.foldl_append]⟩

/-- The parser's block being a root, all other blocks stay as they are. -/
theorem ops_frame (c : Nat) : ∀ (ops : List Op) (h : Heap), Reachable h → (∀ o ∈ ops, OnBlock c o) → IsRoot h c →
    (∀ i, i ≠ c → (ops.foldl step h)[i]? = h[i]?) ∧ IsRoot (ops.foldl step h) c := by
  intro ops
  induction ops with
  | nil => intro h _ _ hr; exact ⟨fun _ _ => rfl, hr⟩
  | cons o ops ih =>
    intro h hre ho hr
    have key : (∀ i, i ≠ c → (step h o)[i]? = h[i]?) ∧ IsRoot (step h o) c := by
      obtain ⟨blk, b1, b2⟩ := hr
      have hlt : c < h.length := by
        rw [List.getElem?_eq_some_iff] at b1; exact b1.1
      have upd : ∀ blk' : Block, blk'.parent = none → (∀ i, i ≠ c → (h.set c blk')[i]? = h[i]?) ∧ IsRoot (h.set c blk') c := by
        intro blk' hp
        refine ⟨fun i hi => by rw [List.getElem?_set_ne (Ne.symm hi)], blk', by rw [List.getElem?_set_self hlt], hp⟩
      have ho' := ho o (by simp)
      cases o <;> simp only [OnBlock] at ho'
      case setValue b k v d =>
        subst ho'
        have : (setValue h b k v d).1 = h ∨ ∃ k' , (setValue h b k v d).1 = h.set b (blk.put k' v d) := by
          rw [set_view hre.wf (.root b1 b2) b1]
          split
          · exact .inl rfl
          · exact .inr ⟨_, rfl⟩
        rcases this with e | ⟨k', e⟩
        · rw [step, e]; exact ⟨fun _ _ => rfl, blk, b1, b2⟩
        · rw [step, e]; exact upd _ b2
      case markReadOnly b k =>
        subst ho'
        simp only [step, markReadOnly, b1]
        exact upd _ b2
      case setLocation b k l =>
        subst ho'
        simp only [step, setLocation, b1]
        exact upd _ b2
    obtain ⟨k1, k2⟩ := key
    obtain ⟨i1, i2⟩ := ih (step h o) (by obtain ⟨os, rfl⟩ := hre; exact ⟨os ++ [o], by simp [run]⟩) (fun o' ho' => ho o' (by simp [ho'])) k2
    exact ⟨fun i hi => (i1 i hi).trans (k1 i hi), i2⟩

/-- A parse leaves every block that existed before as it was. -/
theorem Parses.frame {w : World} {search : List Str} {h : Heap} {s' : PS} {file : Str} {o : Except PExc Unit} (hr : Reachable h)
    (hp : Parses w (fresh h search) file s' o) :
    s'.cfg = h.length ∧ Reachable s'.heap ∧ IsRoot s'.heap s'.cfg ∧ ∀ i, i < h.length → s'.heap[i]? = h[i]? := by
  have hw := hp.wrote
  have hr1 : Reachable (fresh h search).heap := by
    obtain ⟨os, rfl⟩ := hr
    exact ⟨os ++ [.emptyConfig []], by simp [run, step, fresh]⟩
  have hroot : IsRoot (fresh h search).heap (fresh h search).cfg := ⟨mkBlock [] none, by simp [fresh, emptyConfig], rfl⟩
  obtain ⟨e1, ops, e2, e3⟩ := id hw
  obtain ⟨f1, f2⟩ := ops_frame _ ops _ hr1 e2 hroot
  rw [← e3] at f1 f2
  refine ⟨e1, hw.reachable hr1, by rw [e1]; exact f2, ?_⟩
  intro i hi
  rw [f1 i (by simp only [fresh]; omega)]
  simp only [fresh, emptyConfig]
  exact List.getElem?_append_left hi

end Vital.Parser
