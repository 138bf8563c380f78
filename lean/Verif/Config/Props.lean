import Verif.Config.Lemmas2
/-
  Properties C01–C13 of config blocks.

  Reading guide.  `Reachable h`: `h` is the state after some sequence of API calls.  A handle `b` is
  live when `b < h.length`.  `Denotes h b k r fk`: key `k` of (view or root) `b` is entry `fk` of root
  block `r` (Spec.lean).  Calls that change state return the new state together with the result.
-/
namespace Vital.Config
open Vital

/-- `t` is `v` without its leading and trailing white space. -/
def StripsTo (v t : Str) : Prop :=
  ∃ l r : Str, (∀ c ∈ l, isSpace c = true) ∧ (∀ c ∈ r, isSpace c = true) ∧ Trimmed t ∧ v = l ++ t ++ r

/-! A concrete history used by the non-vacuity examples: a root block 0, a view "a" of it (1), a view
    "b" of that view (2), another root (3). -/
def demo : Heap := run [.emptyConfig (c!"top"), .subblockView 0 (c!"a"), .subblockView 1 (c!"b"),
  .setValue 2 (c!"x") (c!" 1 ") (c!"first"), .setValue 0 (c!"y") (c!"2") [],
  .setValue 0 (c!"_global:g") (c!"7") [], .emptyConfig [], .setValue 3 (c!"y") (c!"9") (c!"new"),
  .setValue 3 (c!"z") (c!"8") [], .markReadOnly 0 (c!"y")]

theorem demo_reachable : Reachable demo := ⟨_, rfl⟩

/-! ### C01 -/

/-- After `set_value(k, v)` through any handle, every alias of the entry reads `v` stripped of white
    space, and every other entry of every block reads as before. -/
theorem C01_set_then_get {h h' : Heap} (hr : Reachable h) {b : Nat} {k v d : Str}
    (hs : setValue h b k v d = (h', .ok ())) :
    (∃ t, StripsTo v t ∧ getValue h' b k = .ok t ∧
      ∀ b' k', SameEntry h b k b' k' → getValue h' b' k' = .ok t) ∧
    (∀ b' k', b' < h.length → ¬ SameEntry h b k b' k' → getValue h' b' k' = getValue h b' k') := by
  have w := hr.wf
  obtain ⟨r, pre, rb, hv, hrb, hp, hro, rfl⟩ := set_ok w hs
  have pr : Prim h (h.set r (rb.put (pre ++ k) v d)) := .put hrb hp hro
  have w' := wf_prim pr w
  have main : ∀ b' k', SameEntry h b k b' k' →
      getValue (h.set r (rb.put (pre ++ k) v d)) b' k' = .ok (trim v) := by
    rintro b' k' ⟨r1, fk, ⟨p1, v1, e1⟩, ⟨p2, v2, e2⟩⟩
    obtain ⟨rfl, rfl⟩ := hv.unique v1
    rw [get_view w' (v2.prims (.one pr)) (set_same hrb), put_find, ← e2, ← e1, if_pos rfl]
  refine ⟨⟨trim v, ?_, main b k ⟨r, pre ++ k, ⟨pre, hv, rfl⟩, ⟨pre, hv, rfl⟩⟩, main⟩, ?_⟩
  · obtain ⟨l, r, h1, h2, h3⟩ := trim_spec v
    exact ⟨l, r, h1, h2, trim_trimmed v, h3⟩
  · intro b' k' hb' hne
    obtain ⟨r', pre', rb', v', hr', _⟩ := live_view w hb'
    rw [get_view w v' hr']
    by_cases e : r' = r
    · subst e
      rw [hrb] at hr'; cases hr'
      rw [get_view w' (v'.prims (.one pr)) (set_same hrb), put_find, if_neg]
      intro he
      exact hne ⟨r', pre ++ k, ⟨pre, hv, rfl⟩, ⟨pre', v', he.symm⟩⟩
    · rw [get_view w' (v'.prims (.one pr)) (by rw [set_other e]; exact hr')]

example : ∃ h', setValue demo 2 (c!"x") (c!"  new value ") [] = (h', .ok ()) ∧
    getValue h' 0 (c!"a:b:x") = .ok (c!"new value") := by
  refine ⟨(setValue demo 2 (c!"x") (c!"  new value ") []).1, ?_, ?_⟩ <;> decide +kernel

/-! ### C02: refinement of a root block to a finite map -/

/-- Abstract state: what a reader of the documentation expects a config block to be. -/
structure AbsCfg where
  val  : Str → Option Str
  desc : Str → Option Str
  ro   : Str → Bool

inductive ROp where
  | set (k v d : Str) | unset (k : Str) | mark (k : Str)

/-- Abstract semantics of the three mutators, with their outcome (`none` = returned normally). -/
def AbsCfg.step (a : AbsCfg) : ROp → AbsCfg × Option Exc
  | .set k v d =>
    if a.ro k then (a, some (.setRO k ((a.val k).getD []) v))
    else ({ a with
            val := fun k' => if k' = k then some (trim v) else a.val k'
            desc := fun k' => if k' = k then (if d = [] then some ((a.desc k).getD []) else some d)
                              else a.desc k' }, none)
  | .unset k =>
    if a.ro k then (a, some (.unsetRO k ((a.val k).getD [])))
    else match a.val k with
      | none => (a, some (.noSuch k))
      | some _ => ({ a with val := fun k' => if k' = k then none else a.val k'
                            desc := fun k' => if k' = k then none else a.desc k' }, none)
  | .mark k => ({ a with ro := fun k' => decide (k' = k) || a.ro k' }, none)

/-- The concrete calls on handle `r`. -/
def concStep (r : Nat) (h : Heap) : ROp → Heap × Option Exc
  | .set k v d => match setValue h r k v d with | (h', .ok _) => (h', none) | (h', .error e) => (h', some e)
  | .unset k => match unsetValue h r k with | (h', .ok _) => (h', none) | (h', .error e) => (h', some e)
  | .mark k => match markReadOnly h r k with | (h', .ok _) => (h', none) | (h', .error e) => (h', some e)

def runWith {S : Type} (f : S → ROp → S × Option Exc) : S → List ROp → S × List (Option Exc)
  | s, [] => (s, [])
  | s, o :: os => let (s', e) := f s o; let (s'', es) := runWith f s' os; (s'', e :: es)

/-- What the queries of block `r` answer is what the abstract map says. -/
def Agrees (h : Heap) (r : Nat) (a : AbsCfg) : Prop := ∀ k,
  hasValue h r k = .ok (a.val k).isSome ∧
  getValue h r k = (match a.val k with | none => .error (.noSuch k) | some v => .ok v) ∧
  getDescription h r k = (match a.desc k with | none => .error (.noSuch k) | some d => .ok d) ∧
  isReadOnly h r k = .ok (a.ro k)

/-- The abstract state of a root block in state `h`. -/
noncomputable def absOf (h : Heap) (r : Nat) : AbsCfg where
  val k := (getValue h r k).toOption
  desc k := (getDescription h r k).toOption
  ro k := match isReadOnly h r k with | .ok b => b | .error _ => false

theorem agrees_of_block {h : Heap} (w : WF h) {r : Nat} {rb : Block} (hb : h[r]? = some rb)
    (hp : rb.parent = none) {a : AbsCfg} (h1 : ∀ k, a.val k = rb.store.find? k)
    (h2 : ∀ k, a.desc k = rb.descr.find? k) (h3 : ∀ k, a.ro k = rb.ro.contains k) : Agrees h r a := by
  intro k
  have v : ViewOf h r r [] := .root hb hp
  refine ⟨?_, ?_, ?_, ?_⟩
  · rw [has_view w v hb, h1]; rfl
  · rw [get_view w v hb, h1]; rfl
  · rw [desc_view w v hb, h2]; rfl
  · simp [isReadOnly, hb, h3]

theorem block_of_agrees {h : Heap} (w : WF h) {r : Nat} {rb : Block} (hb : h[r]? = some rb)
    (hp : rb.parent = none) {a : AbsCfg} (ha : Agrees h r a) (k : Str) :
    a.val k = rb.store.find? k ∧ a.desc k = rb.descr.find? k ∧ a.ro k = rb.ro.contains k := by
  have v : ViewOf h r r [] := .root hb hp
  obtain ⟨_, h2, h3, h4⟩ := ha k
  rw [get_view w v hb] at h2
  rw [desc_view w v hb] at h3
  simp only [isReadOnly, hb, Except.ok.injEq] at h4
  simp only [List.nil_append] at h2 h3
  refine ⟨?_, ?_, h4.symm⟩
  · cases e1 : a.val k <;> cases e2 : rb.store.find? k <;> rw [e1, e2] at h2 <;> simp at h2 <;> simp [h2]
  · cases e1 : a.desc k <;> cases e2 : rb.descr.find? k <;> rw [e1, e2] at h3 <;> simp at h3 <;> simp [h3]

theorem concStep_sim {h : Heap} (w : WF h) {r : Nat} {rb : Block} (hb : h[r]? = some rb)
    (hp : rb.parent = none) {a : AbsCfg} (ha : Agrees h r a) (o : ROp) :
    (concStep r h o).2 = (a.step o).2 ∧ WF (concStep r h o).1 ∧
      (∃ rb', (concStep r h o).1[r]? = some rb' ∧ rb'.parent = none) ∧
      Agrees (concStep r h o).1 r (a.step o).1 := by
  have v : ViewOf h r r [] := .root hb hp
  have hB := block_of_agrees w hb hp ha
  have hcur : ∀ k, currentValue rb k = (a.val k).getD [] := by
    intro k; rw [(hB k).1]; unfold currentValue; cases rb.store.find? k <;> rfl
  cases o with
  | set k x d =>
    simp only [concStep, AbsCfg.step]
    rw [set_view w v hb]
    simp only [List.nil_append]
    rw [(hB k).2.2, hcur]
    by_cases hro : rb.ro.contains k = true
    · rw [if_pos hro, if_pos hro]
      exact ⟨rfl, w, ⟨rb, hb, hp⟩, ha⟩
    · rw [if_neg hro, if_neg hro]
      have pr : Prim h (h.set r (rb.put k x d)) := .put hb hp (by simpa using hro)
      refine ⟨rfl, wf_prim pr w, ⟨_, set_same hb, hp⟩, ?_⟩
      refine agrees_of_block (wf_prim pr w) (set_same hb) hp ?_ ?_ ?_
      · intro k'; rw [put_find]; simp only [(hB k').1]
      · intro k'; rw [put_descr]; simp only [(hB k').2.1, (hB k).2.1]
      · intro k'; exact (hB k').2.2
  | unset k =>
    simp only [concStep, AbsCfg.step]
    rw [unset_view w v hb]
    simp only [List.nil_append]
    rw [(hB k).2.2, hcur]
    by_cases hro : rb.ro.contains k = true
    · rw [if_pos hro, if_pos hro]
      exact ⟨rfl, w, ⟨rb, hb, hp⟩, ha⟩
    · rw [if_neg hro, if_neg hro]
      rw [(hB k).1]
      unfold OMap.contains
      cases hf : rb.store.find? k with
      | none => exact ⟨rfl, w, ⟨rb, hb, hp⟩, ha⟩
      | some x =>
        simp only [Option.isSome_some, Bool.not_true, Bool.false_eq_true, ↓reduceIte]
        have pr : Prim h (h.set r (rb.del k)) := .del hb hp (by simpa using hro)
        refine ⟨trivial, wf_prim pr w, ⟨_, set_same hb, hp⟩, ?_⟩
        refine agrees_of_block (wf_prim pr w) (set_same hb) hp ?_ ?_ ?_
        · intro k'; rw [del_find]; simp only [(hB k').1]
        · intro k'; rw [del_descr]; simp only [(hB k').2.1]
        · intro k'; exact (hB k').2.2
  | mark k =>
    simp only [concStep, AbsCfg.step, markReadOnly, hb]
    have pr := Prim.mark (k := k) hb
    refine ⟨trivial, wf_prim pr w, ⟨_, set_same hb, hp⟩, ?_⟩
    refine agrees_of_block (wf_prim pr w) (set_same hb) hp ?_ ?_ ?_
    · intro k'; exact (hB k').1
    · intro k'; exact (hB k').2.1
    · intro k'
      simp only [(hB k').2.2]
      split
      · rename_i hc
        by_cases e : k' = k
        · subst e; simp only [decide_true, Bool.true_or]; exact hc.symm
        · simp [e]
      · rw [List.contains_cons]
        by_cases e : k' = k <;> simp [e]

/-- For every sequence of mutator calls on a root block of any reachable state, every call ends as the
    abstract map says (including which exception is thrown) and afterwards all queries answer as the
    abstract map. -/
theorem C02_refines_map {h : Heap} (hr : Reachable h) {r : Nat} (hroot : IsRoot h r) (ops : List ROp) :
    (runWith (concStep r) h ops).2 = (runWith AbsCfg.step (absOf h r) ops).2 ∧
    Agrees (runWith (concStep r) h ops).1 r (runWith AbsCfg.step (absOf h r) ops).1 := by
  have w := hr.wf
  obtain ⟨rb, hb, hp⟩ := hroot
  have key : ∀ (ops : List ROp) (h : Heap) (a : AbsCfg) (rb : Block), WF h → h[r]? = some rb →
      rb.parent = none → Agrees h r a →
      (runWith (concStep r) h ops).2 = (runWith AbsCfg.step a ops).2 ∧
      Agrees (runWith (concStep r) h ops).1 r (runWith AbsCfg.step a ops).1 := by
    intro ops
    induction ops with
    | nil => intro h a rb _ _ _ ha; exact ⟨rfl, ha⟩
    | cons o ops ih =>
      intro h a rb w hb hp ha
      obtain ⟨e1, e2, ⟨rb', e3, e4⟩, e5⟩ := concStep_sim w hb hp ha o
      obtain ⟨f1, f2⟩ := ih _ _ rb' e2 e3 e4 e5
      simp only [runWith]
      exact ⟨by rw [e1, f1], f2⟩
  refine key ops h _ rb w hb hp (agrees_of_block w hb hp ?_ ?_ ?_)
  · intro k
    show (getValue h r k).toOption = _
    rw [get_view w (.root hb hp) hb]; simp only [List.nil_append]
    cases rb.store.find? k <;> rfl
  · intro k
    show (getDescription h r k).toOption = _
    rw [desc_view w (.root hb hp) hb]; simp only [List.nil_append]
    cases rb.descr.find? k <;> rfl
  · intro k
    simp only [absOf, isReadOnly, hb]

example : Reachable demo ∧ IsRoot demo 0 ∧
    (runWith (concStep 0) demo [.set (c!"q") (c!"1") [], .unset (c!"y"), .unset (c!"zz")]).2 =
      [none, some (.unsetRO (c!"y") (c!"2")), some (.noSuch (c!"zz"))] := by
  refine ⟨demo_reachable, ⟨_, rfl, ?_⟩, ?_⟩ <;> decide +kernel

/-! ### C03 -/

/-- Once `key` has been marked read-only on its root block, after any further history every alias of
    it still reads the same value and description, and `set_value` / `unset_value` through any alias
    throw and change nothing at all. -/
theorem C03_read_only_forever {h : Heap} (hr : Reachable h) {r : Nat} (hroot : IsRoot h r) (key : Str)
    (ops : List Op) {b : Nat} {k : Str}
    (hd : Denotes (ops.foldl step (markReadOnly h r key).1) b k r key) :
    let h2 := ops.foldl step (markReadOnly h r key).1
    isReadOnly h2 r key = .ok true ∧
    (getValue h2 b k).toOption = (getValue h r key).toOption ∧
    (getDescription h2 b k).toOption = (getDescription h r key).toOption ∧
    ∃ cur, (∀ v d, setValue h2 b k v d = (h2, .error (.setRO key cur v))) ∧
           unsetValue h2 b k = (h2, .error (.unsetRO key cur)) := by
  have w := hr.wf
  obtain ⟨rb, hb, hp⟩ := hroot
  have hm : (markReadOnly h r key).1 = h.set r { rb with ro := if rb.ro.contains key then rb.ro else key :: rb.ro } := by
    simp [markReadOnly, hb]
  have pr : Prim h (markReadOnly h r key).1 := by rw [hm]; exact .mark hb
  have hprot : Protected r key (rb.store.find? key) (rb.descr.find? key) (markReadOnly h r key).1 := by
    rw [hm]
    refine ⟨_, set_same hb, hp, ?_, rfl, rfl⟩
    simp only
    split
    · assumption
    · simp
  have w2 : WF (ops.foldl step (markReadOnly h r key).1) :=
    wf_prims (foldl_prims ops _) (wf_prim pr w)
  obtain ⟨B, e1, e2, e3, e4, e5⟩ := protected_prims (foldl_prims ops _) hprot
  obtain ⟨pre, hv, hk⟩ := hd
  intro h2
  refine ⟨by simp only [h2, isReadOnly, e1, e3], ?_, ?_, currentValue B key, ?_, ?_⟩
  · rw [get_view w2 hv e1, ← hk, e4, get_view w (.root hb hp) hb]; simp only [List.nil_append]
    cases rb.store.find? key <;> rfl
  · rw [desc_view w2 hv e1, ← hk, e5, desc_view w (.root hb hp) hb]; simp only [List.nil_append]
    
  · intro v d
    simp only [h2]; rw [set_view w2 hv e1, ← hk, if_pos e3]
  · simp only [h2]; rw [unset_view w2 hv e1, ← hk, if_pos e3]

example : Denotes (([.mergeConfig 0 3, .setValue 1 (c!"b:x") (c!"5") []] : List Op).foldl step
    (markReadOnly demo 0 (c!"a:b:x")).1) 2 (c!"x") 0 (c!"a:b:x") :=
  ⟨_, .view rfl rfl (.view rfl rfl (.root rfl rfl)), rfl⟩

/-- `merge_config` never changes a protected entry either, even when it throws half-way: instance of
    the theorem above with `ops = [mergeConfig b c]`. -/
theorem C03_merge {h : Heap} (hr : Reachable h) {r : Nat} (hroot : IsRoot h r) (key : Str) (b c : Nat) :
    (getValue (mergeConfig (markReadOnly h r key).1 b c).1 r key).toOption =
      (getValue h r key).toOption := by
  have := C03_read_only_forever hr hroot key [.mergeConfig b c] (b := r) (k := key) (by
    obtain ⟨rb, hb, hp⟩ := hroot
    have pr : Prim h (markReadOnly h r key).1 := by
      simp only [markReadOnly, hb]; exact .mark hb
    have := ((ViewOf.root hb hp).prims (.one pr)).prims (step_prims _ (.mergeConfig b c))
    exact ⟨[], this, rfl⟩)
  exact this.2.1

/-! ### C04: read-only marks set through a view are not enforced -/

/-- The statement of C04. -/
def C04_statement : Prop := ∀ (h : Heap) (b : Nat) (k v d : Str), Reachable h → b < h.length →
  ∃ e, (setValue (markReadOnly h b k).1 b k v d).2 = .error e

/-- C04 does not hold: after marking through view 1 the same view can still overwrite the value. -/
theorem C04_refuted : ¬ C04_statement := by
  intro hc
  obtain ⟨e, he⟩ := hc demo 1 (c!"b:x") (c!"5") [] demo_reachable (by decide +kernel)
  have : (setValue (markReadOnly demo 1 (c!"b:x")).1 1 (c!"b:x") (c!"5") []).2 = .ok () := by
    decide +kernel
  rw [this] at he; cases he

/-- What does hold: a mark made on the root is enforced through every view of it, and a mark made
    through a view is at least remembered by that view's own `is_read_only`. -/
theorem C04_partial {h : Heap} (hr : Reachable h) {b r : Nat} {k fk : Str} (hd : Denotes h b k r fk) :
    (∀ v d, ∃ cur, (setValue (markReadOnly h r fk).1 b k v d).2 = .error (.setRO fk cur v)) ∧
    isReadOnly (markReadOnly h b k).1 b k = .ok true := by
  have w := hr.wf
  obtain ⟨pre, hv, rfl⟩ := hd
  obtain ⟨rb, hb, hp⟩ := hv.root_of
  constructor
  · intro v d
    have hm : (markReadOnly h r (pre ++ k)).1 = h.set r { rb with ro := if rb.ro.contains (pre ++ k) then rb.ro else (pre ++ k) :: rb.ro } := by
      simp [markReadOnly, hb]
    rw [hm]
    have pr := Prim.mark (k := pre ++ k) hb
    rw [set_view (wf_prim pr w) (hv.prims (.one pr)) (set_same hb), if_pos]
    · exact ⟨_, rfl⟩
    · simp only
      split
      · assumption
      · simp
  · obtain ⟨blk, hblk⟩ : ∃ blk, h[b]? = some blk := ⟨_, List.getElem?_eq_getElem hv.lt⟩
    simp only [markReadOnly, hblk, isReadOnly]
    rw [set_same hblk]
    simp only
    split
    · congr
    · simp

/-! ### C05 -/

/-- `unset_value` on an existing writable key removes exactly that entry. -/
theorem C05_unset_removes {h h' : Heap} (hr : Reachable h) {b : Nat} (hb : b < h.length) {k : Str}
    (hs : unsetValue h b k = (h', .ok ())) :
    hasValue h b k = .ok true ∧
    (∀ b' k', SameEntry h b k b' k' → hasValue h' b' k' = .ok false ∧
      getValue h' b' k' = .error (.noSuch k') ∧ ∃ fk, getDescription h' b' k' = .error (.noSuch fk)) ∧
    (∀ b' k', b' < h.length → ¬ SameEntry h b k b' k' →
      getValue h' b' k' = getValue h b' k' ∧ getDescription h' b' k' = getDescription h b' k') := by
  have w := hr.wf
  obtain ⟨r, pre, rb, hv, hrb, hp, hro, hst, rfl⟩ := unset_ok w hb hs
  have pr : Prim h (h.set r (rb.del (pre ++ k))) := .del hrb hp hro
  have w' := wf_prim pr w
  refine ⟨by rw [has_view w hv hrb, hst], ?_, ?_⟩
  · rintro b' k' ⟨r1, fk, ⟨p1, v1, e1⟩, ⟨p2, v2, e2⟩⟩
    obtain ⟨rfl, rfl⟩ := hv.unique v1
    have v2' := v2.prims (.one pr)
    rw [has_view w' v2' (set_same hrb), get_view w' v2' (set_same hrb), desc_view w' v2' (set_same hrb)]
    unfold OMap.contains
    rw [del_find, del_descr, ← e2, ← e1, if_pos rfl, if_pos rfl]
    exact ⟨rfl, rfl, _, rfl⟩
  · intro b' k' hb' hne
    obtain ⟨r', pre', rb', v', hr', _⟩ := live_view w hb'
    rw [get_view w v' hr', desc_view w v' hr']
    by_cases e : r' = r
    · subst e
      rw [hrb] at hr'; cases hr'
      rw [get_view w' (v'.prims (.one pr)) (set_same hrb), desc_view w' (v'.prims (.one pr)) (set_same hrb),
        del_find, del_descr, if_neg, if_neg]
      · exact ⟨rfl, rfl⟩
      all_goals
        intro he
        exact hne ⟨r', pre ++ k, ⟨pre, hv, rfl⟩, ⟨pre', v', he.symm⟩⟩
    · have e' : (h.set r (rb.del (pre ++ k)))[r']? = some rb' := by rw [set_other e]; exact hr'
      rw [get_view w' (v'.prims (.one pr)) e', desc_view w' (v'.prims (.one pr)) e']
      exact ⟨rfl, rfl⟩

/-- Every other outcome of `unset_value` leaves the state exactly as it was; a missing writable key
    gives `no_such_configuration_value`. -/
theorem C05_unset_fails {h : Heap} (hr : Reachable h) {b r : Nat} {k fk : Str}
    (hd : Denotes h b k r fk) :
    ((unsetValue h b k).2 = .ok () ↔ hasValue h b k = .ok true ∧ isReadOnly h r fk = .ok false) ∧
    ((unsetValue h b k).2 ≠ .ok () → (unsetValue h b k).1 = h) ∧
    (hasValue h b k = .ok false → isReadOnly h r fk = .ok false →
      unsetValue h b k = (h, .error (.noSuch fk))) := by
  have w := hr.wf
  obtain ⟨pre, hv, rfl⟩ := hd
  obtain ⟨rb, hb, hp⟩ := hv.root_of
  rw [unset_view w hv hb, has_view w hv hb]
  simp only [isReadOnly, hb]
  cases h1 : rb.ro.contains (pre ++ k) <;> cases h2 : rb.store.contains (pre ++ k) <;> simp

example : (unsetValue demo 1 (c!"b:x")).2 = .ok () ∧ Denotes demo 1 (c!"b:q") 0 (c!"a:b:q") ∧
    (unsetValue demo 1 (c!"b:q")).2 = .error (.noSuch (c!"a:b:q")) := by
  refine ⟨by decide +kernel, ⟨_, .view rfl rfl (.root rfl rfl), rfl⟩, by decide +kernel⟩

/-! ### C06 -/

/-- A key has a description exactly when it has a value. -/
theorem C06_value_iff_description {h : Heap} (hr : Reachable h) {b : Nat} (hb : b < h.length) (k : Str) :
    (∃ d, getDescription h b k = .ok d) ↔ hasValue h b k = .ok true := by
  have w := hr.wf
  obtain ⟨r, pre, rb, hv, hrb, _⟩ := live_view w hb
  rw [desc_view w hv hrb, has_view w hv hrb, (w _ _ hrb).same]
  unfold OMap.contains
  cases rb.descr.find? (pre ++ k) <;> simp

theorem getValue_ne_ub {h : Heap} (w : WF h) {b : Nat} (hb : b < h.length) (k : Str) :
    getValue h b k ≠ .error .ub := by
  obtain ⟨r, pre, rb, hv, hrb, _⟩ := live_view w hb
  rw [get_view w hv hrb]; cases rb.store.find? (pre ++ k) <;> simp

theorem desc_ne_ub {h : Heap} (w : WF h) {b : Nat} (hb : b < h.length) (k : Str) :
    getDescription h b k ≠ .error .ub := by
  obtain ⟨r, pre, rb, hv, hrb, _⟩ := live_view w hb
  rw [desc_view w hv hrb]; cases rb.descr.find? (pre ++ k) <;> simp

theorem setValue_ne_ub {h : Heap} (w : WF h) {b : Nat} (hb : b < h.length) (k v d : Str) :
    (setValue h b k v d).2 ≠ .error .ub := by
  obtain ⟨r, pre, rb, hv, hrb, _⟩ := live_view w hb
  rw [set_view w hv hrb]; split <;> simp

theorem mergeLoop_ne_ub {b c : Nat} (keys : List Str) : ∀ h : Heap, WF h → b < h.length → c < h.length →
    (mergeLoop b c keys h).2 ≠ .error .ub := by
  induction keys with
  | nil => intro h _ _ _; simp [mergeLoop]
  | cons k keys ih =>
    intro h w hb hc
    unfold mergeLoop
    split
    · rename_i e he
      have := getValue_ne_ub w hc k
      rw [he] at this
      intro he'; simp at he'; subst he'; exact this rfl
    · split
      · rename_i e he
        have := desc_ne_ub w hc k
        rw [he] at this
        intro he'; simp at he'; subst he'; exact this rfl
      · rename_i _ v _ _ d _
        have hne := setValue_ne_ub w hb k v d
        have hp := setValueF_prims h.length h b k v d
        split <;> rename_i heq
        · rw [heq] at hne; exact hne
        · simp only [setValue] at heq; rw [heq] at hp
          exact ih _ (wf_prims hp w) (lt_prims hp hb) (lt_prims hp hc)

theorem subLoop_ne_ub {b s : Nat} {nm : Str} (keys : List Str) : ∀ h : Heap, WF h → b < h.length →
    s < h.length → (subblockLoop b s nm keys h).2 ≠ .error .ub := by
  induction keys with
  | nil => intro h _ _ _; simp [subblockLoop]
  | cons k keys ih =>
    intro h w hb hs
    unfold subblockLoop
    split
    · exact ih h w hb hs
    split
    · rename_i e he
      obtain ⟨r, pre, rb, hv, hrb, _⟩ := live_view w hb
      rw [iGet_view w hv hrb] at he; cases he
    · split
      · rename_i e he
        have := desc_ne_ub w hb k
        rw [he] at this
        intro he'; simp at he'; subst he'; exact this rfl
      · rename_i _ v _ _ d _
        have hne := setValue_ne_ub w hs (stripBlockName nm k) v d
        have hp := setValueF_prims h.length h s (stripBlockName nm k) v d
        split <;> rename_i heq
        · rw [heq] at hne; exact hne
        · simp only [setValue] at heq; rw [heq] at hp
          exact ih _ (wf_prims hp w) (lt_prims hp hb) (lt_prims hp hs)

/-- No public call on live handles has undefined behaviour, in any reachable state. -/
theorem C06_no_undefined_behaviour {h : Heap} (hr : Reachable h) {b c : Nat} (hb : b < h.length)
    (hc : c < h.length) (k v d : Str) (l : Loc) :
    getValue h b k ≠ .error .ub ∧ getDescription h b k ≠ .error .ub ∧ hasValue h b k ≠ .error .ub ∧
    availableValues h b ≠ .error .ub ∧ isReadOnly h b k ≠ .error .ub ∧ getLocation h b k ≠ .error .ub ∧
    (setValue h b k v d).2 ≠ .error .ub ∧ (unsetValue h b k).2 ≠ .error .ub ∧
    (markReadOnly h b k).2 ≠ .error .ub ∧ (mergeConfig h b c).2 ≠ .error .ub ∧
    (subblock h b k).2 ≠ .error .ub ∧ (subblockView h b k).2 ≠ .error .ub ∧
    (setLocation h b k l).2 ≠ .error .ub := by
  have w := hr.wf
  obtain ⟨r, pre, rb, hv, hrb, _⟩ := live_view w hb
  obtain ⟨blk, hblk⟩ : ∃ blk, h[b]? = some blk := ⟨_, List.getElem?_eq_getElem hb⟩
  refine ⟨getValue_ne_ub w hb k, desc_ne_ub w hb k, ?_, ?_, ?_, ?_, setValue_ne_ub w hb k v d, ?_, ?_, ?_, ?_, ?_, ?_⟩
  · rw [has_view w hv hrb]; simp
  · obtain ⟨ks, e⟩ := avail_total w hv; rw [e]; simp
  · simp [isReadOnly, hblk]
  · simp [getLocation, hblk]
  · rw [unset_view w hv hrb]; split
    · simp
    · split <;> simp
  · simp [markReadOnly, hblk]
  · obtain ⟨_, _, hvc⟩ := viewOf_total w c hc
    obtain ⟨ks, e⟩ := avail_total w hvc
    unfold mergeConfig; rw [e]; exact mergeLoop_ne_ub ks h w hb hc
  · unfold subblock
    have hp : Prims h (h ++ [mkBlock k none]) := .one (.new (by simp))
    obtain ⟨ks, e⟩ := avail_total (wf_prims hp w) (hv.prims hp)
    rw [e]
    have := subLoop_ne_ub (b := b) (s := h.length) (nm := k) ks _ (wf_prims hp w) (lt_prims hp hb) (by simp)
    simp only
    split <;> rename_i heq
    · rw [heq] at this; simpa using this
    · simp
  · simp [subblockView, hblk]
  · simp [setLocation, hblk]

example : Reachable demo ∧ 2 < demo.length ∧ 3 < demo.length ∧ hasValue demo 2 (c!"x") = .ok true := by
  refine ⟨demo_reachable, ?_, ?_, ?_⟩ <;> decide +kernel

/-! ### C07 -/

/-- A non-empty description replaces the old one; an empty one keeps an existing description and
    otherwise stores an empty one.  No other description changes. -/
theorem C07_description_rule {h h' : Heap} (hr : Reachable h) {b : Nat} {k v d : Str}
    (hs : setValue h b k v d = (h', .ok ())) :
    (d ≠ [] → getDescription h' b k = .ok d) ∧
    (d = [] → ∀ d0, getDescription h b k = .ok d0 → getDescription h' b k = .ok d0) ∧
    (d = [] → hasValue h b k = .ok false → getDescription h' b k = .ok []) ∧
    (∀ b' k', b' < h.length → ¬ SameEntry h b k b' k' → getDescription h' b' k' = getDescription h b' k') := by
  have w := hr.wf
  obtain ⟨r, pre, rb, hv, hrb, hp, hro, rfl⟩ := set_ok w hs
  have pr : Prim h (h.set r (rb.put (pre ++ k) v d)) := .put hrb hp hro
  have w' := wf_prim pr w
  rw [desc_view w' (hv.prims (.one pr)) (set_same hrb), desc_view w hv hrb, has_view w hv hrb, put_descr,
    if_pos rfl]
  refine ⟨?_, ?_, ?_, ?_⟩
  · intro hd; rw [if_neg hd]
  · intro hd d0 h0
    rw [if_pos hd]
    cases hf : rb.descr.find? (pre ++ k) <;> rw [hf] at h0 <;> simp at h0
    simp [h0]
  · intro hd h0
    rw [(w _ _ hrb).same] at h0
    rw [if_pos hd]
    unfold OMap.contains at h0
    cases hf : rb.descr.find? (pre ++ k) <;> rw [hf] at h0 <;> simp at h0
    simp
  · intro b' k' hb' hne
    obtain ⟨r', pre', rb', v', hr', _⟩ := live_view w hb'
    rw [desc_view w v' hr']
    by_cases e : r' = r
    · subst e
      rw [hrb] at hr'; cases hr'
      rw [desc_view w' (v'.prims (.one pr)) (set_same hrb), put_descr, if_neg]
      intro he
      exact hne ⟨r', pre ++ k, ⟨pre, hv, rfl⟩, ⟨pre', v', he.symm⟩⟩
    · rw [desc_view w' (v'.prims (.one pr)) (by rw [set_other e]; exact hr')]

example : (setValue demo 2 (c!"x") (c!"3") []).2 = .ok () ∧
    getDescription demo 0 (c!"a:b:x") = .ok (c!"first") ∧
    getDescription (setValue demo 2 (c!"x") (c!"3") []).1 2 (c!"x") = .ok (c!"first") := by
  refine ⟨?_, ?_, ?_⟩ <;> decide +kernel

/-! ### C08 -/

/-- A view `v` made by `b.subblock_view(n)` behaves, after any later history, like `b` with the key
    prefix `n:` — same answers, same exceptions, same effect on the whole state.  (`get_value` reports
    the key as the caller wrote it, hence `toOption`.) -/
theorem C08_view_is_alias {h h1 : Heap} (hr : Reachable h) {b v : Nat} {n : Str}
    (hv : subblockView h b n = (h1, .ok v)) (ops : List Op) (k x d : Str) :
    let h2 := ops.foldl step h1
    hasValue h2 v k = hasValue h2 b (n ++ c!":" ++ k) ∧
    (getValue h2 v k).toOption = (getValue h2 b (n ++ c!":" ++ k)).toOption ∧
    getDescription h2 v k = getDescription h2 b (n ++ c!":" ++ k) ∧
    setValue h2 v k x d = setValue h2 b (n ++ c!":" ++ k) x d ∧
    unsetValue h2 v k = unsetValue h2 b (n ++ c!":" ++ k) := by
  have w := hr.wf
  unfold subblockView at hv
  split at hv
  · cases hv
  · rename_i blk hb
    simp only [Prod.mk.injEq, Except.ok.injEq] at hv
    obtain ⟨rfl, rfl⟩ := hv
    have p1 : Prims h (h ++ [mkBlock n (some b)]) :=
      .one (.new (by intro q hq; cases hq; exact lt_of_some hb))
    have pv := foldl_prims ops (h ++ [mkBlock n (some b)])
    have w2 := wf_prims (p1.trans pv) w
    obtain ⟨r, pre, v0⟩ := viewOf_total w b (lt_of_some hb)
    have vb := v0.prims (p1.trans pv)
    obtain ⟨rb, hrb, _⟩ := vb.root_of
    obtain ⟨blk', e1, e2, e3⟩ := same_prims pv h.length (mkBlock n (some b)) (by simp)
    have vv : ViewOf (ops.foldl step (h ++ [mkBlock n (some b)])) h.length r (pre ++ (n ++ [':'])) := by
      have := ViewOf.view (pre := pre) (r := r) (p := b) e1 (by rw [e2]; rfl) vb
      rw [e3] at this; exact this
    have ek : pre ++ (n ++ [':']) ++ k = pre ++ (n ++ [':'] ++ k) := by simp
    intro h2
    simp only [h2]
    rw [has_view w2 vv hrb, has_view w2 vb hrb, get_view w2 vv hrb, get_view w2 vb hrb,
      desc_view w2 vv hrb, desc_view w2 vb hrb, set_view w2 vv hrb, set_view w2 vb hrb,
      unset_view w2 vv hrb, unset_view w2 vb hrb, ek]
    refine ⟨rfl, ?_, rfl, rfl, rfl⟩
    cases rb.store.find? (pre ++ (n ++ [':'] ++ k)) <;> rfl

example : ∃ h1, subblockView demo 1 (c!"b") = (h1, .ok 4) ∧
    getValue (step h1 (.setValue 4 (c!"x") (c!"55") [])) 2 (c!"x") = .ok (c!"55") := by
  refine ⟨_, rfl, ?_⟩; decide +kernel

/-! ### C09 -/

/-- The keys of the source block that end up as key `k` of `subblock(n)`: `n:k`, and `k` itself when it
    is a `_global:` key that does not itself start with `n:`. -/
def Source (n k q : Str) : Prop :=
  q = n ++ c!":" ++ k ∨
  (q = k ∧ (∃ t, k = c!"_global:" ++ t) ∧ ¬ ∃ t, k = n ++ c!":" ++ t)

theorem source_iff (n k q : Str) :
    (!doesNotBeginWith q n && decide (stripBlockName n q = k)) = true ↔ Source n k q := by
  simp only [Bool.and_eq_true, Bool.not_eq_true', decide_eq_true_eq]
  rw [keep_strip_iff]
  unfold Source
  simp [globalValue]

/-- `subblock(n)` of a root block never throws; the result is a new root block named `n`; nothing
    else changes; and for every key `k` it holds the value of the present source key (the larger one
    in key order if both are present), or no value if there is none. -/
theorem C09_subblock_copies {h : Heap} (hr : Reachable h) {b : Nat} (hb : IsRoot h b) (n : Str) :
    ∃ h', subblock h b n = (h', .ok h.length) ∧ IsRoot h' h.length ∧ getName h' h.length = .ok n ∧
      (∀ i, i < h.length → h'[i]? = h[i]?) ∧
      (∀ k q, Source n k q → hasValue h b q = .ok true →
        (∀ q', Source n k q' → hasValue h b q' = .ok true → strLt q q' = false) →
        getValue h' h.length k = getValue h b q) ∧
      (∀ k, (∀ q, Source n k q → hasValue h b q = .ok false) → hasValue h' h.length k = .ok false) ∧
      (∀ k, isReadOnly h' h.length k = .ok false) ∧
      (∀ k q, Source n k q → (∀ q', Source n k q' → hasValue h b q' = .ok true → q' = q) →
        (getDescription h' h.length k).toOption = (getDescription h b q).toOption) := by
  have w := hr.wf
  obtain ⟨B, eB, pB⟩ := hb
  have hlt := lt_of_some eB
  have pnew : Prims h (h ++ [mkBlock n none]) := .one (.new (by simp))
  have w1 := wf_prims pnew w
  have eB1 : (h ++ [mkBlock n none])[b]? = some B := by
    rw [List.getElem?_append_left hlt]; exact eB
  have eS1 : (h ++ [mkBlock n none])[h.length]? = some (mkBlock n none) := by simp
  obtain ⟨h', S', f1, f2, f3, f4, f5, f6, f7, f8, f9, f10, f11⟩ :=
    subLoop_spec (nm := n) (b := b) (s := h.length) (by omega) B.store.keys _ B _ w1 eB1 pB eS1 rfl rfl
      (fun k hk => (OMap.contains_iff _ _).2 hk)
  have hsub : subblock h b n = (h', .ok h.length) := by
    unfold subblock
    rw [avail_root eB1 pB]
    simp only [f1]
  have vS : ViewOf h' h.length h.length [] := .root f4 f5
  have vB : ViewOf h b b [] := .root eB pB
  have hsort := OMap.sorted_keys (w _ _ eB).sorted_store
  have hhas : ∀ q, hasValue h b q = .ok true ↔ q ∈ B.store.keys := by
    intro q; rw [has_view w vB eB]; simp only [Except.ok.injEq, List.nil_append]; exact OMap.contains_iff _ _
  have hhasF : ∀ q, hasValue h b q = .ok false ↔ q ∉ B.store.keys := by
    intro q
    rw [has_view w vB eB, ← OMap.contains_iff]
    simp only [Except.ok.injEq, List.nil_append, Bool.not_eq_true]
  refine ⟨h', hsub, ⟨S', f4, f5⟩, ?_, ?_, ?_, ?_, ?_, ?_⟩
  · simp only [getName, f4, f7]; rfl
  · intro i hi; rw [f9 i (by omega), List.getElem?_append_left hi]
  · intro k q hq hqv hmax
    have hmem : q ∈ B.store.keys.filter (fun q => !doesNotBeginWith q n && decide (stripBlockName n q = k)) :=
      List.mem_filter.2 ⟨(hhas q).1 hqv, (source_iff n k q).2 hq⟩
    have hlast : (B.store.keys.filter (fun q => !doesNotBeginWith q n && decide (stripBlockName n q = k))).getLast? = some q := by
      have hs := List.Pairwise.filter (fun q => !doesNotBeginWith q n && decide (stripBlockName n q = k)) hsort
      obtain ⟨l1, l2, e⟩ := List.append_of_mem hmem
      rw [e] at hs ⊢
      have : l2 = [] := by
        cases l2 with
        | nil => rfl
        | cons q' l2 =>
          exfalso
          have hq' : q' ∈ B.store.keys.filter (fun q => !doesNotBeginWith q n && decide (stripBlockName n q = k)) := by
            rw [e]; simp
          obtain ⟨m1, m2⟩ := List.mem_filter.1 hq'
          have hle := hmax q' ((source_iff n k q').1 m2) ((hhas q').2 m1)
          have hlt' := (List.pairwise_cons.1 (List.pairwise_append.1 hs).2.1).1 q' (by simp)
          have : strLt q q' = true := hlt'
          rw [this] at hle; cases hle
      subst this; simp
    rw [get_view f2 vS f4, get_view w vB eB]
    simp only [List.nil_append]
    rw [f10, hlast]
    obtain ⟨x, hx⟩ : ∃ x, B.store.find? q = some x :=
      Option.isSome_iff_exists.1 ((OMap.contains_iff _ _).2 ((hhas q).1 hqv))
    simp only [hx]
  · intro k hk
    rw [has_view f2 vS f4]
    simp only [List.nil_append, OMap.contains]
    rw [f10]
    have : B.store.keys.filter (fun q => !doesNotBeginWith q n && decide (stripBlockName n q = k)) = [] := by
      rw [List.filter_eq_nil_iff]
      intro q hq hs
      exact (hhasF q).1 (hk q ((source_iff n k q).1 hs)) hq
    rw [this]; rfl
  · intro k; simp only [isReadOnly, f4, f6]; rfl
  · intro k q hq huniq
    rw [desc_view f2 vS f4, desc_view w vB eB]
    simp only [List.nil_append]
    rw [f11]
    have hd0 : (mkBlock n none).descr.find? k = none := rfl
    rw [hd0]
    by_cases hqv : q ∈ B.store.keys
    · have hfil : B.store.keys.filter (fun q => !doesNotBeginWith q n && decide (stripBlockName n q = k)) = [q] := by
        have hs := List.Pairwise.filter (fun q => !doesNotBeginWith q n && decide (stripBlockName n q = k)) hsort
        have hmem : q ∈ B.store.keys.filter (fun q => !doesNotBeginWith q n && decide (stripBlockName n q = k)) :=
          List.mem_filter.2 ⟨hqv, (source_iff n k q).2 hq⟩
        have hall : ∀ q' ∈ B.store.keys.filter (fun q => !doesNotBeginWith q n && decide (stripBlockName n q = k)), q' = q := by
          intro q' hq'
          obtain ⟨m1, m2⟩ := List.mem_filter.1 hq'
          exact huniq q' ((source_iff n k q').1 m2) ((hhas q').2 m1)
        generalize hL : B.store.keys.filter (fun q => !doesNotBeginWith q n && decide (stripBlockName n q = k)) = L at *
        cases L with
        | nil => simp at hmem
        | cons a L =>
          have ha := hall a (by simp)
          subst ha
          cases L with
          | nil => rfl
          | cons c L =>
            have hc := hall c (by simp)
            subst hc
            have := (List.pairwise_cons.1 hs).1 c (by simp)
            rw [KeyOrd.irrefl] at this; cases this
      rw [hfil]
      have hdk : B.descr.contains q = true := by
        rw [← (w _ _ eB).same]; exact (OMap.contains_iff _ _).2 hqv
      obtain ⟨d, hd⟩ : ∃ d, B.descr.find? q = some d := Option.isSome_iff_exists.1 hdk
      simp only [List.map_cons, List.map_nil, hd, Option.getD_some, descrFold, List.foldl_cons, List.foldl_nil,
        Option.getD_none]
      by_cases hd0 : d = [] <;> simp [hd0]
    · have hfil : B.store.keys.filter (fun q => !doesNotBeginWith q n && decide (stripBlockName n q = k)) = [] := by
        rw [List.filter_eq_nil_iff]
        intro q' hq' hs
        have := huniq q' ((source_iff n k q').1 hs) ((hhas q').2 hq')
        exact hqv (this ▸ hq')
      have hdk : B.descr.find? q = none := by
        have : B.descr.contains q = false := by
          rw [← (w _ _ eB).same]
          simpa using fun h => hqv ((OMap.contains_iff _ _).1 h)
        simpa [OMap.contains] using this
      rw [hfil, hdk]; rfl

/-- Corollary in the form of the property: for keys outside `_global:` the copy is exact. -/
theorem C09_subblock_exact {h : Heap} (hr : Reachable h) {b : Nat} (hb : IsRoot h b) (n k : Str)
    (hk : ¬ ∃ t, k = c!"_global:" ++ t) :
    ∃ h', subblock h b n = (h', .ok h.length) ∧
      (getValue h' h.length k).toOption = (getValue h b (n ++ c!":" ++ k)).toOption ∧
      (getDescription h' h.length k).toOption = (getDescription h b (n ++ c!":" ++ k)).toOption := by
  obtain ⟨h', e1, ⟨S, eS, pS⟩, _, _, e5, e6, _, e8⟩ := C09_subblock_copies hr hb n
  have huniq : ∀ q', Source n k q' → q' = n ++ c!":" ++ k := by
    rintro q' (h1 | ⟨_, h2, _⟩)
    · exact h1
    · exact absurd h2 hk
  refine ⟨h', e1, ?_, e8 k _ (Or.inl rfl) (fun q' hq' _ => huniq q' hq')⟩
  have w := hr.wf
  obtain ⟨B, eB, pB⟩ := hb
  have w' : WF h' := by
    have := wf_prims (subblock_prims h b n) w
    rw [e1] at this; exact this
  cases hh : B.store.contains (n ++ c!":" ++ k) with
  | true =>
    rw [e5 k _ (Or.inl rfl) (by rw [has_view w (.root eB pB) eB]; exact congrArg _ hh) (by
      intro q' hq' _; rw [huniq q' hq']; exact strLt_irrefl _)]
  | false =>
    have hf := e6 k (by
      intro q hq; rw [huniq q hq, has_view w (.root eB pB) eB]; exact congrArg _ hh)
    rw [has_view w' (.root eS pS) eS] at hf
    rw [get_view w' (.root eS pS) eS, get_view w (.root eB pB) eB]
    simp only [List.nil_append, Except.ok.injEq, OMap.contains] at hf hh ⊢
    cases e1 : S.store.find? k <;> rw [e1] at hf <;> simp at hf
    cases e2 : B.store.find? (n ++ [':'] ++ k) <;> rw [e2] at hh <;> simp at hh
    rfl

/-- Non-interference: a call made on handle `b'` leaves a root block untouched unless `b'` is that
    block or a view of it.  (`Op.target` is the handle the call is made on; for the calls that create
    blocks there is none.) -/
theorem C09_noninterference {h : Heap} (hr : Reachable h) {r : Nat} (hroot : IsRoot h r) (op : Op)
    (hn : ∀ b pre, op.target = some b → ¬ ViewOf h b r pre) {v : Nat} {pre : Str}
    (hv : ViewOf h v r pre) (k : Str) :
    getValue (step h op) v k = getValue h v k ∧ getDescription (step h op) v k = getDescription h v k ∧
    hasValue (step h op) v k = hasValue h v k ∧ availableValues (step h op) r = availableValues h r ∧
    isReadOnly (step h op) r k = isReadOnly h r k ∧ getLocation (step h op) r k = getLocation h r k := by
  have w := hr.wf
  have e := step_frame w hroot op hn
  have p := step_prims h op
  have w' := wf_prims p w
  obtain ⟨rb, hb, hp⟩ := hroot
  have hb' : (step h op)[r]? = some rb := by rw [e, hb]
  rw [get_view w hv hb, get_view w' (hv.prims p) hb', desc_view w hv hb, desc_view w' (hv.prims p) hb',
    has_view w hv hb, has_view w' (hv.prims p) hb', avail_root hb hp, avail_root hb' hp]
  simp [isReadOnly, getLocation, hb, hb']

/-- No call of the history is made on `r` or a view of it. -/
def NeverOn (r : Nat) : Heap → List Op → Prop
  | _, [] => True
  | h, op :: ops => (∀ b pre, op.target = some b → ¬ ViewOf h b r pre) ∧ NeverOn r (step h op) ops

/-- A detached block: after `s = b.subblock(n)`, histories that never call on `b` (or its views) leave
    every value of `b` as it is, and histories that never call on `s` leave every value of `s`. -/
theorem C09_detached {h h' : Heap} (hr : Reachable h) {b s : Nat} {n : Str} (hb : IsRoot h b)
    (hs : subblock h b n = (h', .ok s)) (ops : List Op) (k : Str) :
    (NeverOn b h' ops → getValue (ops.foldl step h') b k = getValue h b k) ∧
    (NeverOn s h' ops → getValue (ops.foldl step h') s k = getValue h' s k) := by
  have gen : ∀ (ops : List Op) (h0 : Heap) (r : Nat), WF h0 → IsRoot h0 r → NeverOn r h0 ops →
      (ops.foldl step h0)[r]? = h0[r]? := by
    intro ops
    induction ops with
    | nil => intros; rfl
    | cons o ops ih =>
      intro h0 r w hr hn
      have p := step_prims h0 o
      show ((ops.foldl step (step h0 o)))[r]? = _
      rw [ih _ r (wf_prims p w) (isRoot_prims p hr) hn.2, step_frame w hr o hn.1]
  have gen2 : ∀ (h0 : Heap) (r : Nat), WF h0 → IsRoot h0 r → NeverOn r h0 ops →
      getValue (ops.foldl step h0) r k = getValue h0 r k := by
    intro h0 r w hr hn
    have e := gen ops h0 r w hr hn
    have p := foldl_prims ops h0
    obtain ⟨rb, h1, h2⟩ := hr
    have v : ViewOf h0 r r [] := .root h1 h2
    rw [get_view w v h1, get_view (wf_prims p w) (v.prims p) (by rw [e, h1])]
  have w := hr.wf
  obtain ⟨h'', f1, f2, _, f4, _⟩ := C09_subblock_copies hr hb n
  rw [hs] at f1
  simp only [Prod.mk.injEq, Except.ok.injEq] at f1
  obtain ⟨rfl, rfl⟩ := f1
  have p1 : Prims h h' := by have := subblock_prims h b n; rw [hs] at this; exact this
  have w1 := wf_prims p1 w
  refine ⟨fun hn => ?_, fun hn => gen2 h' _ w1 f2 hn⟩
  rw [gen2 h' b w1 (isRoot_prims p1 hb) hn]
  obtain ⟨B, eB, pB⟩ := hb
  have eB' : h'[b]? = some B := by rw [f4 b (lt_of_some eB), eB]
  rw [get_view w (.root eB pB) eB, get_view w1 (.root eB' pB) eB']

example : ∃ h', subblock demo 0 (c!"a") = (h', .ok 4) ∧ getValue h' 4 (c!"b:x") = .ok (c!"1") ∧
    getValue h' 4 (c!"_global:g") = .ok (c!"7") ∧
    getValue (step h' (.setValue 4 (c!"b:x") (c!"2") [])) 0 (c!"a:b:x") = .ok (c!"1") := by
  refine ⟨(subblock demo 0 (c!"a")).1, ?_, ?_, ?_, ?_⟩ <;> decide +kernel

/-! ### C10 -/

/-- Root block: the key list is strictly increasing (hence duplicate free) and lists exactly the keys
    that have a value. -/
theorem C10_available_root {h : Heap} (hr : Reachable h) {b : Nat} (hb : IsRoot h b) :
    ∃ ks, availableValues h b = .ok ks ∧ ks.Pairwise (fun a c => strLt a c = true) ∧ ks.Nodup ∧
      ∀ k, k ∈ ks ↔ hasValue h b k = .ok true := by
  have w := hr.wf
  obtain ⟨B, eB, pB⟩ := hb
  refine ⟨_, avail_root eB pB, OMap.sorted_keys (w _ _ eB).sorted_store,
    OMap.keys_nodup (w _ _ eB).sorted_store, ?_⟩
  intro k
  rw [has_view w (.root eB pB) eB]
  simp only [Except.ok.injEq, List.nil_append]
  exact (OMap.contains_iff _ _).symm

/-- Any handle: every readable key is listed. -/
theorem C10_available_complete {h : Heap} (hr : Reachable h) {b : Nat} (hb : b < h.length) :
    ∃ ks, availableValues h b = .ok ks ∧ ∀ k, hasValue h b k = .ok true → k ∈ ks := by
  have w := hr.wf
  obtain ⟨r, pre, rb, hv, hrb, _⟩ := live_view w hb
  obtain ⟨ks, e⟩ := avail_total w hv
  refine ⟨ks, e, fun k hk => has_mem_avail w hv hrb k ks ?_ e⟩
  rw [has_view w hv hrb] at hk; simpa using hk

/-- Exact content for a view of a root block: the readable keys, plus the parent's `_global:` keys,
    which are listed but cannot be read through the view. -/
theorem C10_available_view_exact {h : Heap} (hr : Reachable h) {v p : Nat} {n : Str} {blk : Block}
    (hv : h[v]? = some blk) (hpar : blk.parent = some p) (hn : blk.name = n) (hp : IsRoot h p) :
    ∃ ks, availableValues h v = .ok ks ∧ ∀ k, k ∈ ks ↔
      (hasValue h v k = .ok true ∨
       (hasValue h p k = .ok true ∧ (∃ t, k = c!"_global:" ++ t) ∧ ¬ ∃ t, k = n ++ c!":" ++ t)) := by
  have w := hr.wf
  obtain ⟨B, eB, pB⟩ := hp
  have hvv : ViewOf h v p ([] ++ (blk.name ++ [':'])) := .view hv hpar (.root eB pB)
  have e0 := avail_root eB pB
  obtain ⟨ks, e1, -⟩ := mem_avail_view w hv hpar e0 []
  refine ⟨ks, e1, fun k => ?_⟩
  obtain ⟨ks', e2, e3⟩ := mem_avail_view w hv hpar e0 k
  rw [e1] at e2; cases e2
  rw [e3, has_view w hvv eB, has_view w (.root eB pB) eB, ← hn]
  simp only [Except.ok.injEq, OMap.contains_iff]
  simp [globalValue]

/-- A view can list a key it cannot read (found while proving C10). -/
theorem C10_view_lists_unreadable_key : ∃ ks, availableValues demo 1 = .ok ks ∧ c!"_global:g" ∈ ks ∧
    hasValue demo 1 (c!"_global:g") = .ok false ∧
    getValue demo 1 (c!"_global:g") = .error (.noSuch (c!"_global:g")) := by
  refine ⟨[c!"_global:g", c!"b:x"], ?_, ?_, ?_, ?_⟩ <;> decide +kernel

/-! ### C11 -/

/-- `merge_config(c)` into `b`, for blocks that do not share storage and when all listed keys of `c`
    are readable (always so for a root block): with `ks` the key list of `c`, exactly the keys of a
    prefix `done` of `ks` are merged; either `done = ks` and the call returns normally, or the next key
    is read-only in `b` and the call throws for that key.  Nothing else in any block changes, and no
    read-only attribute changes. -/
theorem C11_merge {h : Heap} (hr : Reachable h) {b c rb rc : Nat} {pb pc : Str}
    (hvb : ViewOf h b rb pb) (hvc : ViewOf h c rc pc) (hne : rb ≠ rc) {ks : List Str}
    (hks : availableValues h c = .ok ks) (hread : ∀ k ∈ ks, hasValue h c k = .ok true) :
    ∃ done rest h' res, ks = done ++ rest ∧ mergeConfig h b c = (h', res) ∧
      (∀ k ∈ done, isReadOnly h rb (pb ++ k) = .ok false) ∧
      ((rest = [] ∧ res = .ok ()) ∨
       (∃ bad rest' cur v, rest = bad :: rest' ∧ isReadOnly h rb (pb ++ bad) = .ok true ∧
          res = .error (.setRO (pb ++ bad) cur v))) ∧
      (∀ k ∈ done, getValue h' b k = getValue h c k) ∧
      (∀ k ∈ done, ∀ d, getDescription h c k = .ok d → d ≠ [] → getDescription h' b k = .ok d) ∧
      (∀ b' k', b' < h.length → (∀ k ∈ done, ¬ SameEntry h b k b' k') →
        getValue h' b' k' = getValue h b' k' ∧ getDescription h' b' k' = getDescription h b' k') ∧
      (∀ b' k', isReadOnly h' b' k' = isReadOnly h b' k') := by
  have w := hr.wf
  obtain ⟨B, eB, pB⟩ := hvb.root_of
  obtain ⟨C, eC, pC⟩ := hvc.root_of
  obtain ⟨done, rest, h', B', res, f1, f2, f3, f4, f5, f6, f7, f7', f8, f8', f9, f10, f11, f12⟩ :=
    mergeLoop_spec hne ks h B C w hvb hvc eB eC pB (by
      intro k hk
      have := hread k hk
      rw [has_view w hvc eC] at this
      simpa using this)
  have hfind : ∀ k ∈ done, done.find? (fun q => decide (pb ++ q = pb ++ k)) = some k := by
    intro k hk
    cases hf : done.find? (fun q => decide (pb ++ q = pb ++ k)) with
    | none =>
      have := List.find?_eq_none.1 hf k hk
      simp at this
    | some q =>
      have := List.find?_some hf
      simp only [decide_eq_true_eq] at this
      rw [List.append_cancel_left this]
  have vb' := hvb.prims f4
  refine ⟨done, rest, h', res, f1, by simp only [mergeConfig, hks, f2], ?_, ?_, ?_, ?_, ?_, ?_⟩
  · intro k hk; simp only [isReadOnly, eB, f9 k hk]
  · rcases f12 with f12 | ⟨bad, rest', cur, v, g1, g2, g3, g4, g5⟩
    · exact Or.inl f12
    · exact Or.inr ⟨bad, rest', cur, v, g1, by simp only [isReadOnly, eB, g2], g5⟩
  · intro k hk
    rw [get_view f3 vb' f5, f10, hfind k hk, get_view w hvc eC]
  · intro k hk d hd hdne
    rw [desc_view w hvc eC] at hd
    rw [desc_view f3 vb' f5, f11, hfind k hk]
    simp only
    cases hf : C.descr.find? (pc ++ k) with
    | none => rw [hf] at hd; cases hd
    | some d' => rw [hf] at hd; cases hd; simp [hdne]
  · intro b' k' hb' hns
    obtain ⟨r', pre', R, v', hR, _⟩ := live_view w hb'
    rw [get_view w v' hR, desc_view w v' hR]
    by_cases e : r' = rb
    · subst e
      rw [eB] at hR; cases hR
      have hnone : done.find? (fun q => decide (pb ++ q = pre' ++ k')) = none := by
        rw [List.find?_eq_none]
        intro q hq hqe
        exact hns q hq ⟨r', pb ++ q, ⟨pb, hvb, rfl⟩, ⟨pre', v', by simpa using hqe⟩⟩
      rw [get_view f3 (v'.prims f4) f5, desc_view f3 (v'.prims f4) f5, f10, f11, hnone]
      exact ⟨rfl, rfl⟩
    · have hR' : h'[r']? = some R := by rw [f6 r' e]; exact hR
      rw [get_view f3 (v'.prims f4) hR', desc_view f3 (v'.prims f4) hR']
      exact ⟨rfl, rfl⟩
  · intro b' k'
    unfold isReadOnly
    by_cases e : b' = rb
    · subst e; rw [f5, eB]; simp only [f7]
    · rw [f6 b' e]

/-- For a root block as source the readability hypothesis holds by itself. -/
theorem C11_root_source_readable {h : Heap} (hr : Reachable h) {c : Nat} (hc : IsRoot h c) {ks : List Str}
    (hks : availableValues h c = .ok ks) : ∀ k ∈ ks, hasValue h c k = .ok true := by
  obtain ⟨ks', e1, _, _, e2⟩ := C10_available_root hr hc
  rw [hks] at e1; cases e1
  exact fun k hk => (e2 k).1 hk

/-- Without a read-only conflict the merge returns normally and every key of `c` is in effect. -/
theorem C11_merge_no_conflict {h : Heap} (hr : Reachable h) {b c rb : Nat} {pb : Str}
    (hvb : ViewOf h b rb pb) (hc : IsRoot h c) (hne : rb ≠ c)
    (hro : ∀ k, hasValue h c k = .ok true → isReadOnly h rb (pb ++ k) = .ok false) :
    ∃ h', mergeConfig h b c = (h', .ok ()) ∧
      (∀ k, hasValue h c k = .ok true → getValue h' b k = getValue h c k) ∧
      (∀ k, hasValue h c k = .ok false → getValue h' b k = getValue h b k) := by
  have w := hr.wf
  obtain ⟨ks, e1, _, _, e2⟩ := C10_available_root hr hc
  obtain ⟨C, eC, pC⟩ := hc
  obtain ⟨done, rest, h', res, f1, f2, f3, f4, f5, f6, f7, f8⟩ :=
    C11_merge hr hvb (.root eC pC) hne e1 (fun k hk => (e2 k).1 hk)
  have hrest : rest = [] ∧ res = .ok () := by
    rcases f4 with f4 | ⟨bad, rest', cur, v, g1, g2, g3⟩
    · exact f4
    · exfalso
      have := hro bad ((e2 bad).1 (by rw [f1, g1]; simp))
      rw [this] at g2; cases g2
  obtain ⟨rfl, rfl⟩ := hrest
  rw [List.append_nil] at f1
  subst f1
  refine ⟨h', f2, fun k hk => f5 k ((e2 k).2 hk), fun k hk => (f7 b k hvb.lt ?_).1⟩
  rintro q hq ⟨r1, fk, ⟨p1, v1, g1⟩, ⟨p2, v2, g2⟩⟩
  have u := v1.unique v2
  obtain ⟨_, rfl⟩ := u
  have : q = k := List.append_cancel_left (g1 ▸ g2 : p2 ++ q = p2 ++ k) 
  subst this
  have := (e2 q).1 hq
  rw [hk] at this; cases this

example : ViewOf demo 0 0 [] ∧ IsRoot demo 3 ∧ (0 : Nat) ≠ 3 ∧
    availableValues demo 3 = .ok [c!"y", c!"z"] ∧
    (mergeConfig demo 0 3).2 = .error (.setRO (c!"y") (c!"2") (c!"9")) ∧
    (mergeConfig demo 1 3).2 = .ok () ∧
    getValue (mergeConfig demo 1 3).1 0 (c!"a:z") = .ok (c!"8") := by
  refine ⟨.root rfl rfl, ⟨_, rfl, rfl⟩, by decide, ?_, ?_, ?_, ?_⟩ <;> decide +kernel

/-! ### C12 -/

/-- `get_value(key, def)` returns normally for every live handle, key and conversion; its result is the
    converted value if the key exists and converts, and `def` otherwise. -/
theorem C12_default_never_throws {T : Type} (cast : Str → Option T) {h : Heap} (hr : Reachable h)
    {b : Nat} (hb : b < h.length) (k : Str) (dflt : T) :
    ∃ t, getValueDef cast h b k dflt = .ok t ∧
      (∀ v t', getValue h b k = .ok v → cast v = some t' → t = t') ∧
      (hasValue h b k = .ok false → t = dflt) ∧
      (∀ v, getValue h b k = .ok v → cast v = none → t = dflt) := by
  have w := hr.wf
  obtain ⟨r, pre, rb, hv, hrb, _⟩ := live_view w hb
  unfold getValueDef
  rw [getAs_view _ w hv hrb, get_view w hv hrb, has_view w hv hrb]
  unfold OMap.contains
  cases hf : rb.store.find? (pre ++ k) with
  | none => exact ⟨dflt, rfl, by simp, by simp, by simp⟩
  | some v =>
    simp only
    cases hc : cast v with
    | none => exact ⟨dflt, rfl, by intro v' t' e; cases e; simp [hc], by simp, by simp⟩
    | some t =>
      refine ⟨t, rfl, ?_, by simp, ?_⟩
      · intro v' t' e e'; cases e; rw [hc] at e'; cases e'; rfl
      · intro v' e e'; cases e; rw [hc] at e'; cases e'

/-! ### C13 -/

/-- The twenty-six upper/lower case letter pairs. -/
def letterPairs : List (Char × Char) :=
  (c!"ABCDEFGHIJKLMNOPQRSTUVWXYZ").zip (c!"abcdefghijklmnopqrstuvwxyz")

/-- `s` spells the lower-case word `t` up to case. -/
def SpellsCI : Str → Str → Prop
  | [], [] => True
  | c :: s, d :: t => (c = d ∨ (c, d) ∈ letterPairs) ∧ SpellsCI s t
  | _, _ => False

theorem toLower_eq_iff {c d : Char} (hd : d ∈ c!"truefalsyno10") :
    toLower c = d ↔ (c = d ∨ (c, d) ∈ letterPairs) := by
  constructor
  · intro h
    unfold toLower at h
    split at h
    · rename_i hc
      right
      have h1 : 65 ≤ c.toNat := by have := hc.1; exact this
      have h2 : c.toNat ≤ 90 := by have := hc.2; exact this
      have : ∃ n : Fin 26, c = Char.ofNat (65 + n.val) := by
        refine ⟨⟨c.toNat - 65, by omega⟩, ?_⟩
        simp only
        rw [show 65 + (c.toNat - 65) = c.toNat by omega, Char.ofNat_toNat]
      obtain ⟨n, rfl⟩ := this
      subst h
      revert n
      decide +kernel
    · exact Or.inl h
  · rintro (rfl | h)
    · revert hd; revert c; decide +kernel
    · revert h
      have : ∀ p ∈ letterPairs, toLower p.1 = p.2 := by decide +kernel
      intro h; exact this _ h

theorem map_toLower_iff (s t : Str) (ht : ∀ d ∈ t, d ∈ c!"truefalsyno10") :
    s.map toLower = t ↔ SpellsCI s t := by
  induction s generalizing t with
  | nil => cases t <;> simp [SpellsCI]
  | cons c s ih =>
    cases t with
    | nil => simp [SpellsCI]
    | cons d t =>
      simp only [List.map_cons, List.cons.injEq, SpellsCI]
      rw [ih t (fun e he => ht e (by simp [he])), toLower_eq_iff (ht d (by simp))]

/-- `get_value<bool>` yields true (false) exactly for the spellings of true/yes/1 (false/no/0), in any
    mixture of cases, and throws for everything else. -/
theorem C13_bool_table (s : Str) :
    (castBool s = some true ↔ SpellsCI s (c!"true") ∨ SpellsCI s (c!"yes") ∨ SpellsCI s (c!"1")) ∧
    (castBool s = some false ↔ SpellsCI s (c!"false") ∨ SpellsCI s (c!"no") ∨ SpellsCI s (c!"0")) := by
  have e : ∀ t, (∀ d ∈ t, d ∈ c!"truefalsyno10") → (SpellsCI s t ↔ s.map toLower = t) :=
    fun t ht => (map_toLower_iff s t ht).symm
  rw [e (c!"true") (by decide), e (c!"yes") (by decide), e (c!"1") (by decide),
    e (c!"false") (by decide), e (c!"no") (by decide), e (c!"0") (by decide)]
  unfold castBool
  simp only
  constructor
  · constructor
    · intro h
      split at h
      · assumption
      · split at h <;> cases h
    · intro h; rw [if_pos h]
  · constructor
    · intro h
      split at h
      · cases h
      · split at h
        · assumption
        · cases h
    · intro h
      rw [if_neg, if_pos h]
      rintro h'
      revert h h'
      generalize s.map toLower = x
      rintro (rfl | rfl | rfl) <;> decide

/-- Storing a bool with either overload and reading it as bool returns it. -/
theorem C13_bool_roundtrip {h h' : Heap} (hr : Reachable h) {b : Nat} {k d : Str} (x : Bool)
    (hs : setValue h b k (boolText3 x) d = (h', .ok ()) ∨ setValue h b k (boolText2 x) [] = (h', .ok ())) :
    getValueAs castBool h' b k = .ok x := by
  have key : ∀ v d', setValue h b k v d' = (h', .ok ()) → castBool (trim v) = some x →
      getValueAs castBool h' b k = .ok x := by
    intro v d' hs hc
    have w := hr.wf
    obtain ⟨r, pre, rb, hv, hrb, hp, hro, rfl⟩ := set_ok w hs
    have pr : Prim h (h.set r (rb.put (pre ++ k) v d')) := .put hrb hp hro
    rw [getAs_view _ (wf_prim pr w) (hv.prims (.one pr)) (set_same hrb), put_find, if_pos rfl]
    simp only [hc]
  rcases hs with hs | hs
  · exact key _ _ hs (by cases x <;> decide +kernel)
  · exact key _ _ hs (by cases x <;> decide +kernel)

example : castBool (c!"YeS") = some true ∧ castBool (c!"on") = none ∧
    ∃ h', setValue demo 1 (c!"flag") (boolText3 true) [] = (h', .ok ()) := by
  refine ⟨by decide +kernel, by decide +kernel, _, rfl⟩

end Vital.Config
