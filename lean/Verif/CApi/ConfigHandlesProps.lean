import Verif.CApi.ConfigHandles
/- Properties C124 (C config handles behave as the C++ objects they stand for) and C125 (no use after free). -/
namespace Vital.CApi.Cfg
open Vital Vital.Config Vital.CApi

/-! ### The cache represents the handle table -/

/-- The cache and counts represent `table`, every reference count being one. -/
structure Rel (s : St) (p : Prog) : Prop where
  heap : s.heap = p.heap
  addr : s.addr = p.addr
  find : ∀ cb, s.cache.cache.find? cb = (p.table cb).map (fun b => ⟨cb, b⟩)
  count : ∀ cb, s.cache.count.find? cb = (p.table cb).map (fun _ => 1)

/-- Well-formed C++ programs. -/
structure Prog.Ok (p : Prog) : Prop where
  reach : Reachable p.heap
  len : p.addr.length = p.heap.length
  at_ : ∀ cb b, p.table cb = some b → p.addr[b]? = some cb
  null : p.table 0 = none

theorem Prog.Ok.lt {p : Prog} (o : p.Ok) {cb b : Nat} (h : p.table cb = some b) : b < p.heap.length := by
  rw [← o.len]
  exact (List.getElem?_eq_some_iff.1 (o.at_ cb b h)).1

theorem get_table {s : St} {p : Prog} (r : Rel s p) (o : p.Ok) (cb : Nat) :
    (∀ b, p.table cb = some b → CApi.get s.cache cb = .ok ⟨cb, b⟩) ∧
    (p.table cb = none → ∃ e, CApi.get s.cache cb = .error e) := by
  unfold CApi.get
  refine ⟨fun b h => ?_, fun h => ?_⟩
  · have : cb ≠ 0 := by rintro rfl; rw [o.null] at h; cases h
    rw [if_neg this, r.find, h]; rfl
  · split
    · exact ⟨_, rfl⟩
    · rw [r.find, h]; exact ⟨_, rfl⟩

theorem table_of_legal {p : Prog} (o : p.Ok) {a : Nat} (h : Legal p a) : p.table a = none := by
  cases e : p.table a with
  | none => rfl
  | some b => exact absurd (o.at_ a b e) (h.2 b ⟨a, b, e, .self⟩)

theorem rel_created {s : St} {p : Prog} (r : Rel s p) (o : p.Ok) {a : Nat} (h : Legal p a) (hp : Heap) :
    Rel (storeNew s a (hp, .ok p.heap.length)).1 (p.created hp a).1 ∧
    (storeNew s a (hp, .ok p.heap.length)).2 = (p.created hp a).2 := by
  have hn := table_of_legal o h
  have hc : s.cache.cache.contains a = false := by simp [OMap.contains, r.find, hn]
  have hs : store s.cache ⟨a, p.heap.length⟩ =
      (⟨s.cache.cache.insert a ⟨a, p.heap.length⟩, s.cache.count.insert a 1⟩, .ok ()) := by
    simp [store, h.1, hc]
  unfold storeNew
  simp only [hs, Prog.created, and_true]
  refine ⟨rfl, by rw [r.addr], fun cb => ?_, fun cb => ?_⟩
  · simp only [OMap.find?_insert]
    by_cases e : cb = a
    · subst e; simp
    · simp only [e, ↓reduceIte]; exact r.find cb
  · simp only [OMap.find?_insert]
    by_cases e : cb = a
    · subst e; simp
    · simp only [e, ↓reduceIte]; exact r.count cb

theorem subblock_err {h : Heap} {b : Nat} {k : Str} {hp : Heap} {e : Exc} (he : Config.subblock h b k = (hp, .error e)) :
    hp = h := by
  unfold Config.subblock at he
  split at he
  · cases he; rfl
  · split at he
    · cases he; rfl
    · cases he

theorem subblock_ok {h : Heap} {b : Nat} {k : Str} {hp : Heap} {n : Nat} (he : Config.subblock h b k = (hp, .ok n)) :
    n = h.length := by
  unfold Config.subblock at he
  split at he
  · cases he
  · split at he
    · cases he
    · cases he; rfl

theorem rel_make {s : St} {p : Prog} (r : Rel s p) (o : p.Ok) {a cb : Nat} (h : Legal p a)
    (f : Heap → Nat → Heap × Except Exc Nat)
    (f1 : ∀ b hp e, f p.heap b = (hp, .error e) → hp = p.heap)
    (f2 : ∀ b hp n, f p.heap b = (hp, .ok n) → n = p.heap.length) :
    let x := (match CApi.get s.cache cb with
      | .error _ => (s, Res.handle 0)
      | .ok q => storeNew s a (f s.heap q.tag))
    Rel x.1 (p.make a cb f).1 ∧ x.2 = (p.make a cb f).2 := by
  intro x
  obtain ⟨g1, g2⟩ := get_table r o cb
  unfold Prog.make
  cases ht : p.table cb with
  | none =>
    obtain ⟨e, he⟩ := g2 ht
    simp only [x, he]
    exact ⟨r, trivial⟩
  | some b =>
    simp only [x, g1 b ht, r.heap]
    cases hf : f p.heap b with
    | mk hp res =>
      cases res with
      | error e =>
        have := f1 _ _ _ hf
        subst this
        simp only [storeNew]
        exact ⟨⟨rfl, r.addr, r.find, r.count⟩, trivial⟩
      | ok n =>
        have := f2 _ _ _ hf
        subst this
        exact rel_created r o h hp

theorem rel_read {s : St} {p : Prog} (r : Rel s p) (o : p.Ok) {T : Type} (cb : Nat) (f : Heap → Nat → Except Exc T)
    (dflt : Res) (g : T → Res) {x : St × Res} (h1 : ∀ e, CApi.get s.cache cb = .error e → x = (s, dflt))
    (h2 : ∀ q e, CApi.get s.cache cb = .ok q → f s.heap q.tag = .error e → x = (s, dflt))
    (h3 : ∀ q v, CApi.get s.cache cb = .ok q → f s.heap q.tag = .ok v → x = (s, g v)) :
    Rel x.1 (p.read cb f dflt g).1 ∧ x.2 = (p.read cb f dflt g).2 := by
  obtain ⟨g1, g2⟩ := get_table r o cb
  unfold Prog.read
  cases ht : p.table cb with
  | none =>
    obtain ⟨e, he⟩ := g2 ht
    rw [h1 e he]
    exact ⟨r, rfl⟩
  | some b =>
    cases hf : f p.heap b with
    | error e => rw [h2 _ e (g1 b ht) (by rw [r.heap]; exact hf)]; simp only [hf]; exact ⟨r, trivial⟩
    | ok v => rw [h3 _ v (g1 b ht) (by rw [r.heap]; exact hf)]; simp only [hf]; exact ⟨r, trivial⟩

theorem rel_write {s : St} {p : Prog} (r : Rel s p) (o : p.Ok) (cb : Nat) (f : Heap → Nat → Heap) :
    let x := (match CApi.get s.cache cb with
      | .error _ => (s, Res.void)
      | .ok q => ({ s with heap := f s.heap q.tag }, .void))
    Rel x.1 (p.write cb f).1 ∧ x.2 = (p.write cb f).2 := by
  intro x
  obtain ⟨g1, g2⟩ := get_table r o cb
  unfold Prog.write
  cases ht : p.table cb with
  | none =>
    obtain ⟨e, he⟩ := g2 ht
    simp only [x, he]
    exact ⟨r, trivial⟩
  | some b =>
    simp only [x, g1 b ht, r.heap]
    exact ⟨⟨rfl, r.addr, r.find, r.count⟩, trivial⟩

theorem rel_destroy {s : St} {p : Prog} (r : Rel s p) (o : p.Ok) (cb : Nat) :
    Rel (destroy s cb).1 { p with table := fun x => if x = cb then none else p.table x } := by
  unfold destroy erase
  simp only
  by_cases h0 : cb = 0
  · subst h0
    simp only [↓reduceIte]
    have : (fun x => if x = 0 then none else p.table x) = p.table := by
      funext x; split
      · rename_i e; subst e; exact o.null.symm
      · rfl
    rw [this]
    exact ⟨r.heap, r.addr, r.find, r.count⟩
  · rw [if_neg h0]
    rw [r.find, r.count]
    cases ht : p.table cb with
    | none =>
      simp only [Option.map_none]
      have : (fun x => if x = cb then none else p.table x) = p.table := by
        funext x; split
        · rename_i e; subst e; exact ht.symm
        · rfl
      rw [this]
      exact ⟨r.heap, r.addr, r.find, r.count⟩
    | some b =>
      simp only [Option.map_some, Option.getD_some, dec]
      simp only [Nat.one_ne_zero, ↓reduceIte, Nat.sub_self]
      refine ⟨r.heap, r.addr, fun x => ?_, fun x => ?_⟩
      · simp only [OMap.find?_erase]
        by_cases e : x = cb
        · simp [e]
        · simp only [e, ↓reduceIte]; exact r.find x
      · simp only [OMap.find?_erase, OMap.find?_insert]
        by_cases e : x = cb
        · simp [e]
        · simp only [e, ↓reduceIte]; exact r.count x

/-! ### Well-formedness is kept -/

theorem prims_length {h h' : Heap} (p : Prims h h') : h.length ≤ h'.length := by
  induction p with
  | refl => exact Nat.le_refl _
  | tail _ q ih => cases q <;> simp_all <;> omega

theorem setF_length (n : Nat) (h : Heap) (b : Nat) (k v d : Str) : (iSetValueF n h b k v d).1.length = h.length := by
  induction n generalizing b k with
  | zero => rfl
  | succ n ih =>
    unfold iSetValueF
    split
    · rfl
    · split
      · exact ih _ _
      · split
        · rfl
        · simp

theorem unsetF_length (n : Nat) (h : Heap) (b : Nat) (k : Str) : (unsetValueF n h b k).1.length = h.length := by
  induction n generalizing b k with
  | zero => rfl
  | succ n ih =>
    unfold unsetValueF
    split
    · rfl
    · split
      · exact ih _ _
      · split
        · rfl
        · split
          · rfl
          · split <;> simp

theorem merge_length (b c : Nat) (keys : List Str) (h : Heap) : (mergeLoop b c keys h).1.length = h.length := by
  induction keys generalizing h with
  | nil => rfl
  | cons k keys ih =>
    unfold mergeLoop
    split
    · rfl
    · rename_i v _
      split
      · rfl
      · rename_i d _
        have hl : (Config.setValue h b k v d).1.length = h.length := setF_length _ _ _ _ _ _
        split
        · rename_i e; rw [e] at hl; exact hl
        · rename_i e; rw [e] at hl; rw [ih]; exact hl

theorem subLoop_length (b c : Nat) (n : Str) (keys : List Str) (h : Heap) :
    (subblockLoop b c n keys h).1.length = h.length := by
  induction keys generalizing h with
  | nil => rfl
  | cons k keys ih =>
    unfold subblockLoop
    split
    · exact ih h
    · split
      · rfl
      · rename_i v _
        split
        · rfl
        · rename_i d _
          have hl : (Config.setValue h c (stripBlockName n k) v d).1.length = h.length := setF_length _ _ _ _ _ _
          split
          · rename_i e; rw [e] at hl; exact hl
          · rename_i e; rw [e] at hl; rw [ih]; exact hl

theorem sub_length {h hp : Heap} {b n : Nat} {k : Str} (he : Config.subblock h b k = (hp, .ok n)) :
    hp.length = h.length + 1 := by
  unfold Config.subblock at he
  split at he
  · cases he
  · rename_i keys _
    have hl := subLoop_length b h.length k keys (h ++ [mkBlock k none])
    split at he
    · cases he
    · rename_i e; rw [e] at hl; cases he; simpa using hl

theorem ok_created {p : Prog} (o : p.Ok) {a : Nat} (h : Legal p a) {hp : Heap} (hr : Reachable hp)
    (hl : hp.length = p.heap.length + 1) : (p.created hp a).1.Ok := by
  refine ⟨hr, by simp [Prog.created, hl, o.len], fun cb b e => ?_, ?_⟩
  · simp only [Prog.created] at e ⊢
    by_cases hc : cb = a
    · subst hc
      simp only [↓reduceIte, Option.some.injEq] at e
      subst e
      rw [← o.len]; simp
    · rw [if_neg hc] at e
      have hlt := o.lt e
      rw [List.getElem?_append_left (by rw [o.len]; exact hlt)]
      exact o.at_ _ _ e
  · simp only [Prog.created]
    rw [if_neg (fun e => h.1 e.symm)]
    exact o.null

theorem ok_write {p : Prog} (o : p.Ok) (cb : Nat) (f : Heap → Nat → Heap)
    (hf : ∀ b, Reachable (f p.heap b) ∧ (f p.heap b).length = p.heap.length) : (p.write cb f).1.Ok := by
  unfold Prog.write
  cases p.table cb with
  | none => exact o
  | some b => exact ⟨(hf b).1, by simp only [(hf b).2]; exact o.len, o.at_, o.null⟩

theorem ok_make {p : Prog} (o : p.Ok) {a : Nat} (h : Legal p a) (cb : Nat) (f : Heap → Nat → Heap × Except Exc Nat)
    (hf : ∀ b hp n, f p.heap b = (hp, .ok n) → Reachable hp ∧ hp.length = p.heap.length + 1) :
    (p.make a cb f).1.Ok := by
  unfold Prog.make
  cases p.table cb with
  | none => exact o
  | some b =>
    simp only
    cases hb : f p.heap b with
    | mk hp res =>
      cases res with
      | error e => exact o
      | ok n => exact ok_created o h (hf b hp n hb).1 (hf b hp n hb).2

theorem ok_spec {p : Prog} (o : p.Ok) {a : Nat} (h : Legal p a) (c : Call) : (spec p a c).1.Ok := by
  have hr := o.reach
  cases c <;> simp only [spec] <;> try exact o
  case new => exact ok_created o h (hr.step (.emptyConfig [])) (by simp [emptyConfig])
  case newNamed n => exact ok_created o h (hr.step (.emptyConfig n)) (by simp [emptyConfig])
  case destroy cb =>
    refine ⟨hr, o.len, fun x b e => ?_, ?_⟩
    · simp only at e
      split at e
      · cases e
      · exact o.at_ _ _ e
    · simp only; split
      · rfl
      · exact o.null
  case subblock cb k =>
    refine ok_make o h cb _ (fun b hp n e => ⟨?_, sub_length e⟩)
    have := hr.step (.subblock b k)
    simp only [Config.step, e] at this
    exact this
  case subblockView cb k =>
    refine ok_make o h cb _ (fun b hp n e => ?_)
    have := hr.step (.subblockView b k)
    simp only [Config.step, e] at this
    refine ⟨this, ?_⟩
    unfold Config.subblockView at e
    split at e
    · cases e
    · cases e; simp
  case setValue cb k v => exact ok_write o cb _ (fun b => ⟨hr.step (.setValue b k v []), setF_length _ _ _ _ _ _⟩)
  case setValueDescr cb k v d => exact ok_write o cb _ (fun b => ⟨hr.step (.setValue b k v d), setF_length _ _ _ _ _ _⟩)
  case unsetValue cb k => exact ok_write o cb _ (fun b => ⟨hr.step (.unsetValue b k), unsetF_length _ _ _ _⟩)
  case markReadOnly cb k =>
    refine ok_write o cb _ (fun b => ⟨hr.step (.markReadOnly b k), ?_⟩)
    unfold Config.markReadOnly
    split <;> simp
  case mergeConfig cb other =>
    cases p.table other with
    | none => exact o
    | some c =>
      refine ok_write o cb _ (fun b => ⟨hr.step (.mergeConfig b c), ?_⟩)
      unfold Config.mergeConfig
      split
      · rfl
      · exact merge_length _ _ _ _

/-! ### C124 -/

theorem rel_exec {s : St} {p : Prog} (r : Rel s p) (o : p.Ok) {a : Nat} (h : Legal p a) (c : Call) :
    Rel (exec s a c).1 (spec p a c).1 ∧ (exec s a c).2 = (spec p a c).2 := by
  cases c <;> simp only [exec, spec]
  case new =>
    have := rel_created r o h (emptyConfig p.heap []).1
    simpa [new, newNamed, emptyConfig, r.heap] using this
  case newNamed n =>
    have := rel_created r o h (emptyConfig p.heap n).1
    simpa [newNamed, emptyConfig, r.heap] using this
  case destroy cb => exact ⟨rel_destroy r o cb, rfl⟩
  case getName cb =>
    exact rel_read r o cb Config.getName _ _ (fun e he => by simp only [getName, he])
      (fun q e he hf => by simp only [getName, he]; rw [hf])
      (fun q v he hf => by simp only [getName, he]; rw [hf])
  case subblock cb k =>
    exact rel_make r o h (fun h b => Config.subblock h b k) (fun _ _ _ e => subblock_err e) (fun _ _ _ e => subblock_ok e)
  case subblockView cb k =>
    refine rel_make r o h (fun h b => Config.subblockView h b k) (fun b hp e he => ?_) (fun b hp n he => ?_)
    · unfold Config.subblockView at he
      split at he
      · cases he; rfl
      · cases he
    · unfold Config.subblockView at he
      split at he
      · cases he
      · cases he; rfl
  case getValue cb k =>
    exact rel_read r o cb (fun h b => Config.getValue h b k) _ _ (fun e he => by simp only [getValue, he])
      (fun q e he hf => by simp only [getValue, he]; rw [show getValueAs castString s.heap q.tag k = _ from hf])
      (fun q v he hf => by simp only [getValue, he]; rw [show getValueAs castString s.heap q.tag k = _ from hf])
  case getValueBool cb k =>
    exact rel_read r o cb (fun h b => getValueAs castBool h b k) _ _ (fun e he => by simp only [getValueBool, he])
      (fun q e he hf => by simp only [getValueBool, he]; rw [hf])
      (fun q v he hf => by simp only [getValueBool, he]; rw [hf])
  case getValueDefault cb k d =>
    exact rel_read r o cb (fun h b => getValueDef castString h b k d) _ _ (fun e he => by simp only [getValueDefault, he])
      (fun q e he hf => by simp only [getValueDefault, he]; rw [hf])
      (fun q v he hf => by simp only [getValueDefault, he]; rw [hf])
  case getValueDefaultBool cb k d =>
    exact rel_read r o cb (fun h b => getValueDef castBool h b k d) _ _ (fun e he => by simp only [getValueDefaultBool, he])
      (fun q e he hf => by simp only [getValueDefaultBool, he]; rw [hf])
      (fun q v he hf => by simp only [getValueDefaultBool, he]; rw [hf])
  case getDescription cb k =>
    exact rel_read r o cb (fun h b => Config.getDescription h b k) _ (fun d => newString (cstr d)) (fun e he => by simp only [getDescription, he])
      (fun q e he hf => by simp only [getDescription, he]; rw [hf])
      (fun q v he hf => by simp only [getDescription, he]; rw [hf])
  case setValue cb k v => exact rel_write r o cb (fun h b => (Config.setValue h b k v []).1)
  case setValueDescr cb k v d => exact rel_write r o cb (fun h b => (Config.setValue h b k v d).1)
  case unsetValue cb k => exact rel_write r o cb (fun h b => (Config.unsetValue h b k).1)
  case isReadOnly cb k =>
    exact rel_read r o cb (fun h b => Config.isReadOnly h b k) _ _ (fun e he => by simp only [isReadOnly, he])
      (fun q e he hf => by simp only [isReadOnly, he]; rw [hf])
      (fun q v he hf => by simp only [isReadOnly, he]; rw [hf])
  case markReadOnly cb k => exact rel_write r o cb (fun h b => (Config.markReadOnly h b k).1)
  case mergeConfig cb other =>
    unfold mergeConfig
    obtain ⟨g1, g2⟩ := get_table r o other
    cases ht : p.table other with
    | none =>
      obtain ⟨e, he⟩ := g2 ht
      simp only [he]
      split <;> exact ⟨r, rfl⟩
    | some c =>
      simp only [g1 c ht]
      exact rel_write r o cb (fun h b => (Config.mergeConfig h b c).1)
  case hasValue cb k =>
    exact rel_read r o cb (fun h b => Config.hasValue h b k) _ _ (fun e he => by simp only [hasValue, he])
      (fun q e he hf => by simp only [hasValue, he]; rw [hf])
      (fun q v he hf => by simp only [hasValue, he]; rw [hf])
  case availableValues cb =>
    exact rel_read r o cb (fun h b => Config.availableValues h b) _ _ (fun e he => by simp only [availableValues, he])
      (fun q e he hf => by simp only [availableValues, he]; rw [hf])
      (fun q v he hf => by simp only [availableValues, he]; rw [hf])

theorem init_ok : Prog.init.Ok := ⟨⟨[], rfl⟩, rfl, by simp [Prog.init], rfl⟩
theorem init_rel : Rel St.init Prog.init := ⟨rfl, rfl, by intro; rfl, by intro; rfl⟩

theorem rel_all {s : St} {p : Prog} (r : Rel s p) (o : p.Ok) (calls : List (Nat × Call)) (h : LegalRun p calls) :
    Rel (execAll s calls).1 (specAll p calls).1 ∧ (execAll s calls).2 = (specAll p calls).2 ∧ (specAll p calls).1.Ok := by
  induction calls generalizing s p with
  | nil => exact ⟨r, rfl, o⟩
  | cons x calls ih =>
    obtain ⟨a, c⟩ := x
    obtain ⟨h1, h2⟩ := h
    obtain ⟨r1, e1⟩ := rel_exec r o h1 c
    obtain ⟨r2, e2, o2⟩ := ih r1 (ok_spec o h1 c) h2
    simp only [execAll, specAll]
    exact ⟨r2, by rw [e1, e2], o2⟩

/-- Any C program over config blocks, with any allocator that does not return memory in use, behaves as
    the C++ program in which each handle names one block: every call returns what the C++ call returns
    (NULL or false when it throws or the handle is dead), and the blocks end up the same.
    A handle resolves in the final state exactly when it was returned by a creating call and has not been
    destroyed since. -/
theorem C124_refines (calls : List (Nat × Call)) (h : LegalRun Prog.init calls) :
    (execAll St.init calls).2 = (specAll Prog.init calls).2 ∧
    (execAll St.init calls).1.heap = (specAll Prog.init calls).1.heap ∧
    (∀ cb b, CApi.get (execAll St.init calls).1.cache cb = .ok ⟨cb, b⟩ ↔ (specAll Prog.init calls).1.table cb = some b) := by
  obtain ⟨r, e, o⟩ := rel_all init_rel init_ok calls h
  refine ⟨e, r.heap, fun cb b => ?_⟩
  obtain ⟨g1, g2⟩ := get_table r o cb
  refine ⟨fun hg => ?_, g1 b⟩
  cases ht : (specAll Prog.init calls).1.table cb with
  | none => obtain ⟨e, he⟩ := g2 ht; rw [he] at hg; cases hg
  | some b' => rw [g1 b' ht] at hg; cases hg; rfl

/-- The handles a call mentions. -/
def Call.handles : Call → List Nat
  | .new | .newNamed _ => []
  | .destroy cb | .getName cb | .subblock cb _ | .subblockView cb _ | .getValue cb _ | .getValueBool cb _
  | .getValueDefault cb _ _ | .getValueDefaultBool cb _ _ | .getDescription cb _ | .setValue cb _ _
  | .setValueDescr cb _ _ _ | .unsetValue cb _ | .isReadOnly cb _ | .markReadOnly cb _ | .hasValue cb _
  | .availableValues cb => [cb]
  | .mergeConfig cb o => [cb, o]

/-- What a call returns when it fails. -/
def Call.failure : Call → Res
  | .new | .newNamed _ | .subblock _ _ | .subblockView _ _ => .handle 0
  | .getName _ | .getValue _ _ | .getValueDefault _ _ _ | .getDescription _ _ => .str none
  | .getValueBool _ _ | .getValueDefaultBool _ _ _ | .isReadOnly _ _ | .hasValue _ _ => .bool false
  | .availableValues _ => .noKeys
  | _ => .void

theorem erase_dead {c : Cache} {cb : Nat} {e : CApi.Err} (h : CApi.get c cb = .error e) : (CApi.erase c cb).1 = c := by
  unfold CApi.get at h
  unfold CApi.erase
  split
  · rfl
  · rename_i h0
    rw [if_neg h0] at h
    cases hf : c.cache.find? cb with
    | none => rfl
    | some x => rw [hf] at h; cases h

/-- A call that mentions a dead or NULL handle changes nothing at all and returns NULL / false. -/
theorem C124_dead_handle (s : St) (a : Nat) (c : Call) {cb : Nat} {e : CApi.Err} (hc : cb ∈ c.handles)
    (h : CApi.get s.cache cb = .error e) : exec s a c = (s, c.failure) := by
  cases c <;> simp only [Call.handles, List.mem_singleton, List.mem_cons, List.not_mem_nil, or_false] at hc <;>
    try subst hc
  case mergeConfig x y =>
    simp only [exec, mergeConfig, Call.failure]
    rcases hc with rfl | rfl
    · simp only [h]
    · split
      · rfl
      · simp only [h]
  case destroy => simp only [exec, destroy, Call.failure, erase_dead h]
  case subblock => simp only [exec, subblock, h, Call.failure]
  case subblockView => simp only [exec, subblockView, h, Call.failure]
  case getName => simp only [exec, getName, h, Call.failure]
  case getValue => simp only [exec, getValue, h, Call.failure]
  case getValueBool => simp only [exec, getValueBool, h, Call.failure]
  case getValueDefault => simp only [exec, getValueDefault, h, Call.failure]
  case getValueDefaultBool => simp only [exec, getValueDefaultBool, h, Call.failure]
  case getDescription => simp only [exec, getDescription, h, Call.failure]
  case setValue => simp only [exec, setValue, h, Call.failure]
  case setValueDescr => simp only [exec, setValueDescr, h, Call.failure]
  case unsetValue => simp only [exec, unsetValue, h, Call.failure]
  case isReadOnly => simp only [exec, isReadOnly, h, Call.failure]
  case markReadOnly => simp only [exec, markReadOnly, h, Call.failure]
  case hasValue => simp only [exec, hasValue, h, Call.failure]
  case availableValues => simp only [exec, availableValues, h, Call.failure]

/-- After a creating call the handle works at once; after one destroy it is dead (also when destroyed
    again), whatever else the program did before. -/
theorem C124_life (calls : List (Nat × Call)) (h : LegalRun Prog.init calls) (a : Nat)
    (ha : Legal (specAll Prog.init calls).1 a) (n : Str) :
    let s := (execAll St.init calls).1
    (exec s a (.newNamed n)).2 = .handle a ∧
    (exec (exec s a (.newNamed n)).1 0 (.getName a)).2 = newString n ∧
    ∃ e, CApi.get (exec (exec s a (.newNamed n)).1 0 (.destroy a)).1.cache a = .error e := by
  intro s
  obtain ⟨r, _, o⟩ := rel_all init_rel init_ok calls h
  obtain ⟨r1, e1⟩ := rel_exec r o ha (.newNamed n)
  have o1 := ok_spec o ha (.newNamed n)
  refine ⟨by rw [e1]; rfl, ?_, ?_⟩
  · have hg := (get_table r1 o1 a).1 (specAll Prog.init calls).1.heap.length (by simp [spec, Prog.created])
    simp only [exec, getName] at hg ⊢
    rw [hg]
    have hh : (newNamed s a n).1.heap = ((specAll Prog.init calls).1.heap ++ [mkBlock n none]) := by
      have := r1.heap
      simp only [exec, spec, Prog.created, emptyConfig] at this
      exact this
    rw [hh]
    simp [Config.getName, mkBlock]
  · have r2 := rel_destroy r1 o1 a
    have o2 : ({ (spec (specAll Prog.init calls).1 a (.newNamed n)).1 with
        table := fun x => if x = a then none else (spec (specAll Prog.init calls).1 a (.newNamed n)).1.table x } : Prog).Ok := by
      refine ⟨o1.reach, o1.len, fun x b e => ?_, ?_⟩
      · simp only at e
        split at e
        · cases e
        · exact o1.at_ _ _ e
      · simp only; split
        · rfl
        · exact o1.null
    exact (get_table r2 o2 a).2 (by simp)

/-- Writing through one handle and reading back: when the C++ call accepts the value, get_value returns it
    stripped of surrounding white space, as a terminated C string. -/
theorem C124_set_get (calls : List (Nat × Call)) (h : LegalRun Prog.init calls) {cb : Nat} {sp : Sptr}
    (hg : CApi.get (execAll St.init calls).1.cache cb = .ok sp) (k v : Str) {h' : Heap}
    (hs : Config.setValue (execAll St.init calls).1.heap sp.tag k v [] = (h', .ok ())) :
    ∃ t, StripsTo v t ∧
      (exec (exec (execAll St.init calls).1 0 (.setValue cb k v)).1 0 (.getValue cb k)).2 = newString t := by
  obtain ⟨r, _, o⟩ := rel_all init_rel init_ok calls h
  have hr : Reachable (execAll St.init calls).1.heap := by rw [r.heap]; exact o.reach
  obtain ⟨⟨t, ht, hv, _⟩, _⟩ := C01_set_then_get hr hs
  refine ⟨t, ht, ?_⟩
  simp only [exec, setValue, getValue, hg, hs]
  rw [show getValueAs castString h' sp.tag k = .ok t from hv]

theorem legal_of_fresh {p : Prog} {a : Nat} (h0 : a ≠ 0) (h : a ∉ p.addr) : Legal p a :=
  ⟨h0, fun _ _ e => h (List.mem_of_getElem? e)⟩

/-- A view outlives the handle of its parent, and is written and read. -/
def lifeCalls : List (Nat × Call) :=
  [(10, .newNamed (c!"cfg")), (20, .subblockView 10 (c!"a")), (99, .destroy 10), (99, .setValue 20 (c!"k") (c!" v ")),
   (99, .getValue 20 (c!"k"))]

example : LegalRun Prog.init lifeCalls ∧
    (execAll St.init lifeCalls).2 = [.handle 10, .handle 20, .void, .void, newString (c!"v")] := by
  refine ⟨⟨legal_of_fresh ?_ ?_, legal_of_fresh ?_ ?_, legal_of_fresh ?_ ?_, legal_of_fresh ?_ ?_, legal_of_fresh ?_ ?_,
    trivial⟩, ?_⟩ <;> decide +kernel

/-- The allocator reuses the address of a destroyed block. -/
def reuseCalls : List (Nat × Call) :=
  [(10, .newNamed (c!"one")), (99, .destroy 10), (10, .newNamed (c!"two")), (99, .getName 10)]

example : LegalRun Prog.init reuseCalls ∧
    (execAll St.init reuseCalls).2 = [.handle 10, .void, .handle 10, newString (c!"two")] := by
  refine ⟨⟨legal_of_fresh ?_ ?_, legal_of_fresh ?_ ?_, ⟨?_, ?_⟩, legal_of_fresh ?_ ?_, trivial⟩, ?_⟩ <;> try decide +kernel
  rintro b ⟨cb, b', h, _⟩
  simp only [spec, Prog.created, Prog.init] at h
  split at h <;> simp_all

end Vital.CApi.Cfg
