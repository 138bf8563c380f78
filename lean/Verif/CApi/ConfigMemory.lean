import Verif.CApi.ConfigHandlesProps
/- Property C125: the C interface to config blocks never touches a block that has been destroyed. -/
namespace Vital.CApi.Cfg
open Vital Vital.Config Vital.CApi

/-- A set of blocks that contains the parent of each of its views. -/
def Closed (S : Nat → Prop) (h : Heap) : Prop := ∀ b blk p, S b → h[b]? = some blk → blk.parent = some p → S p

/-- Two heaps of the same size that agree on the blocks of `S`; the other blocks may hold anything. -/
structure Agree (S : Nat → Prop) (h g : Heap) : Prop where
  len : g.length = h.length
  eq : ∀ b, S b → g[b]? = h[b]?
  closed : Closed S h

variable {S : Nat → Prop} {h g : Heap}

theorem agree_desc (A : Agree S h g) (n : Nat) : ∀ b k, S b → getDescriptionF n g b k = getDescriptionF n h b k := by
  induction n with
  | zero => intros; rfl
  | succ n ih =>
    intro b k hb
    unfold getDescriptionF
    rw [A.eq b hb]
    cases e : h[b]? with
    | none => rfl
    | some blk =>
      cases ep : blk.parent with
      | none => simp only [ep]
      | some p => simp only [ep]; exact ih p _ (A.closed b blk p hb e ep)

theorem agree_has (A : Agree S h g) (n : Nat) : ∀ b k, S b → hasValueF n g b k = hasValueF n h b k := by
  induction n with
  | zero => intros; rfl
  | succ n ih =>
    intro b k hb
    unfold hasValueF
    rw [A.eq b hb]
    cases e : h[b]? with
    | none => rfl
    | some blk =>
      cases ep : blk.parent with
      | none => simp only [ep]
      | some p => simp only [ep]; exact ih p _ (A.closed b blk p hb e ep)

theorem agree_iget (A : Agree S h g) (n : Nat) : ∀ b k, S b → iGetValueF n g b k = iGetValueF n h b k := by
  induction n with
  | zero => intros; rfl
  | succ n ih =>
    intro b k hb
    unfold iGetValueF
    rw [A.eq b hb]
    cases e : h[b]? with
    | none => rfl
    | some blk =>
      cases ep : blk.parent with
      | none => simp only [ep]
      | some p => simp only [ep]; exact ih p _ (A.closed b blk p hb e ep)

theorem agree_avail (A : Agree S h g) (n : Nat) : ∀ b, S b → availableValuesF n g b = availableValuesF n h b := by
  induction n with
  | zero => intros; rfl
  | succ n ih =>
    intro b hb
    unfold availableValuesF
    rw [A.eq b hb]
    cases e : h[b]? with
    | none => rfl
    | some blk =>
      cases ep : blk.parent with
      | none => simp only [ep]
      | some p => simp only [ep]; rw [ih p (A.closed b blk p hb e ep)]

theorem agree_find (A : Agree S h g) {b : Nat} (hb : S b) (k : Str) : findValue g b k = findValue h b k := by
  unfold findValue Config.hasValue iGetValue
  rw [A.len, agree_has A _ b k hb, agree_iget A _ b k hb]

theorem agree_getAs (A : Agree S h g) {T : Type} (cast : Str → Option T) {b : Nat} (hb : S b) (k : Str) :
    getValueAs cast g b k = getValueAs cast h b k := by
  unfold getValueAs
  rw [agree_find A hb]

theorem agree_getDef (A : Agree S h g) {T : Type} (cast : Str → Option T) {b : Nat} (hb : S b) (k : Str) (d : T) :
    getValueDef cast g b k d = getValueDef cast h b k d := by
  unfold getValueDef
  rw [agree_getAs A cast hb]

/-- Writing the same block in both heaps keeps them in agreement. -/
theorem Agree.set (A : Agree S h g) {b : Nat} {blk x : Block} (hb : h[b]? = some blk) (hx : x.parent = blk.parent) :
    Agree S (h.set b x) (g.set b x) := by
  refine ⟨by simp [A.len], fun i hi => ?_, fun i y p hi hy hp => ?_⟩
  · rw [getElem?_set', getElem?_set', A.len]
    split
    · rfl
    · exact A.eq i hi
  · rw [getElem?_set'] at hy
    split at hy
    · rename_i e
      subst e
      rw [if_pos (lt_of_some hb)] at hy
      cases hy
      exact A.closed b blk p hi hb (by rw [← hx]; exact hp)
    · exact A.closed i y p hi hy hp

theorem agree_set (A : Agree S h g) (n : Nat) : ∀ b k v d, S b →
    Agree S (iSetValueF n h b k v d).1 (iSetValueF n g b k v d).1 ∧
    (iSetValueF n g b k v d).2 = (iSetValueF n h b k v d).2 := by
  induction n with
  | zero => intros; exact ⟨A, rfl⟩
  | succ n ih =>
    intro b k v d hb
    unfold iSetValueF
    rw [A.eq b hb]
    cases e : h[b]? with
    | none => exact ⟨A, rfl⟩
    | some blk =>
      cases ep : blk.parent with
      | some p => simp only [ep]; exact ih p _ v d (A.closed b blk p hb e ep)
      | none =>
        simp only [ep]
        split
        · exact ⟨A, rfl⟩
        · exact ⟨A.set e (by simp [ep]), rfl⟩

theorem agree_unset (A : Agree S h g) (n : Nat) : ∀ b k, S b →
    Agree S (unsetValueF n h b k).1 (unsetValueF n g b k).1 ∧ (unsetValueF n g b k).2 = (unsetValueF n h b k).2 := by
  induction n with
  | zero => intros; exact ⟨A, rfl⟩
  | succ n ih =>
    intro b k hb
    unfold unsetValueF
    rw [A.eq b hb]
    cases e : h[b]? with
    | none => exact ⟨A, rfl⟩
    | some blk =>
      cases ep : blk.parent with
      | some p => simp only [ep]; exact ih p _ (A.closed b blk p hb e ep)
      | none =>
        simp only [ep]
        split
        · exact ⟨A, rfl⟩
        · split
          · exact ⟨A, rfl⟩
          · split
            · exact ⟨A.set e (by simp [ep]), rfl⟩
            · exact ⟨A.set e (by simp [ep]), rfl⟩

theorem agree_setValue (A : Agree S h g) {b : Nat} (hb : S b) (k v d : Str) :
    Agree S (Config.setValue h b k v d).1 (Config.setValue g b k v d).1 ∧
    (Config.setValue g b k v d).2 = (Config.setValue h b k v d).2 := by
  unfold Config.setValue
  rw [A.len]
  exact agree_set A _ b k v d hb

theorem agree_mergeLoop {b c : Nat} (hb : S b) (hc : S c) (keys : List Str) : ∀ {h g : Heap}, Agree S h g →
    Agree S (mergeLoop b c keys h).1 (mergeLoop b c keys g).1 ∧ (mergeLoop b c keys g).2 = (mergeLoop b c keys h).2 := by
  induction keys with
  | nil => intro h g A; exact ⟨A, rfl⟩
  | cons k keys ih =>
    intro h g A
    unfold mergeLoop
    have e1 : Config.getValue g c k = Config.getValue h c k := agree_getAs A _ hc k
    have e2 : Config.getDescription g c k = Config.getDescription h c k := by
      unfold Config.getDescription; rw [A.len]; exact agree_desc A _ c k hc
    rw [e1, e2]
    cases Config.getValue h c k with
    | error e => exact ⟨A, rfl⟩
    | ok v =>
      cases Config.getDescription h c k with
      | error e => exact ⟨A, rfl⟩
      | ok d =>
        obtain ⟨A1, r1⟩ := agree_setValue A hb k v d
        cases x : Config.setValue h b k v d with
        | mk h1 s1 =>
          cases y : Config.setValue g b k v d with
          | mk g1 t1 =>
            rw [x, y] at A1 r1
            simp only at A1 r1
            subst r1
            cases t1 with
            | error e => simp only [x, y]; exact ⟨A1, trivial⟩
            | ok u => simp only [x, y]; exact ih A1

theorem agree_merge (A : Agree S h g) {b c : Nat} (hb : S b) (hc : S c) :
    Agree S (Config.mergeConfig h b c).1 (Config.mergeConfig g b c).1 := by
  unfold Config.mergeConfig
  have e : Config.availableValues g c = Config.availableValues h c := by
    unfold Config.availableValues; rw [A.len]; exact agree_avail A _ c hc
  rw [e]
  cases Config.availableValues h c with
  | error e => exact A
  | ok ks => exact (agree_mergeLoop hb hc ks A).1

theorem agree_subLoop {b c : Nat} (hb : S b) (hc : S c) (nm : Str) (keys : List Str) : ∀ {h g : Heap}, Agree S h g →
    Agree S (subblockLoop b c nm keys h).1 (subblockLoop b c nm keys g).1 ∧
    (subblockLoop b c nm keys g).2 = (subblockLoop b c nm keys h).2 := by
  induction keys with
  | nil => intro h g A; exact ⟨A, rfl⟩
  | cons k keys ih =>
    intro h g A
    unfold subblockLoop
    have e1 : iGetValue g b k = iGetValue h b k := by
      unfold iGetValue; rw [A.len]; exact agree_iget A _ b k hb
    have e2 : Config.getDescription g b k = Config.getDescription h b k := by
      unfold Config.getDescription; rw [A.len]; exact agree_desc A _ b k hb
    rw [e1, e2]
    split
    · exact ih A
    · cases iGetValue h b k with
      | error e => exact ⟨A, rfl⟩
      | ok v =>
        cases Config.getDescription h b k with
        | error e => exact ⟨A, rfl⟩
        | ok d =>
          obtain ⟨A1, r1⟩ := agree_setValue A hc (stripBlockName nm k) v d
          cases x : Config.setValue h c (stripBlockName nm k) v d with
          | mk h1 s1 =>
            cases y : Config.setValue g c (stripBlockName nm k) v d with
            | mk g1 t1 =>
              rw [x, y] at A1 r1
              simp only at A1 r1
              subst r1
              cases t1 with
              | error e => simp only [x, y]; exact ⟨A1, trivial⟩
              | ok u => simp only [x, y]; exact ih A1

/-- A new block joins the agreement. -/
theorem Agree.append (A : Agree S h g) (nm : Str) (p : Option Nat) (hp : ∀ q, p = some q → S q) :
    Agree (fun b => S b ∨ b = h.length) (h ++ [mkBlock nm p]) (g ++ [mkBlock nm p]) := by
  have hg : ∀ i, i ≠ h.length → ∀ (f : Heap), f.length = h.length → (f ++ [mkBlock nm p])[i]? = f[i]? := by
    intro i hi f hf
    by_cases hl : i < f.length
    · rw [List.getElem?_append_left hl]
    · rw [List.getElem?_eq_none (by simp; omega), List.getElem?_eq_none (by omega)]
  refine ⟨by simp [A.len], fun i hi => ?_, fun i y q hi hy hq => ?_⟩
  · by_cases e : i = h.length
    · subst e
      rw [List.getElem?_append_right (Nat.le_refl _), List.getElem?_append_right (by rw [A.len]; exact Nat.le_refl _), A.len]
    · rw [hg i e g A.len, hg i e h rfl]
      exact A.eq i (hi.resolve_right e)
  · by_cases e : i = h.length
    · subst e
      rw [List.getElem?_append_right (Nat.le_refl _)] at hy
      simp at hy
      subst hy
      exact Or.inl (hp q hq)
    · rw [hg i e h rfl] at hy
      exact Or.inl (A.closed i y q (hi.resolve_right e) hy hq)

theorem agree_subblock (A : Agree S h g) {b : Nat} (hb : S b) (k : Str) :
    ((∃ e, (Config.subblock h b k).2 = .error e) ∧ (∃ e, (Config.subblock g b k).2 = .error e)) ∨
    (∃ n, (Config.subblock h b k).2 = .ok n ∧ (Config.subblock g b k).2 = .ok n ∧
      Agree (fun b => S b ∨ b = h.length) (Config.subblock h b k).1 (Config.subblock g b k).1) := by
  have A1 := A.append k none (by simp)
  have e : Config.availableValues (g ++ [mkBlock k none]) b = Config.availableValues (h ++ [mkBlock k none]) b := by
    unfold Config.availableValues; rw [A1.len]; exact agree_avail A1 _ b (Or.inl hb)
  unfold Config.subblock
  rw [e]
  cases Config.availableValues (h ++ [mkBlock k none]) b with
  | error e => exact Or.inl ⟨⟨_, rfl⟩, ⟨_, rfl⟩⟩
  | ok ks =>
    simp only
    obtain ⟨A2, r2⟩ := agree_subLoop (Or.inl hb) (Or.inr rfl) k ks A1
    rw [A.len]
    cases x : subblockLoop b h.length k ks (h ++ [mkBlock k none]) with
    | mk h1 s1 =>
      cases y : subblockLoop b h.length k ks (g ++ [mkBlock k none]) with
      | mk g1 t1 =>
        rw [x, y] at A2 r2
        simp only at A2 r2
        subst r2
        cases t1 with
        | error e => exact Or.inl ⟨⟨_, rfl⟩, ⟨_, rfl⟩⟩
        | ok u => exact Or.inr ⟨_, rfl, rfl, A2⟩

/-! ### C125 -/

/-- A block that some handle in the cache still keeps alive. -/
def LiveS (s : St) (a : Nat) : Prop := ∃ cb sp, s.cache.cache.find? cb = some sp ∧ KeptBy s.heap sp.tag a

/-- The memory of destroyed blocks was given back and now holds anything: `t` is `s` except for the
    contents of blocks that are not alive. -/
structure Freed (s t : St) : Prop where
  cache : t.cache = s.cache
  addr : t.addr = s.addr
  len : t.heap.length = s.heap.length
  live : ∀ b, LiveS s b → t.heap[b]? = s.heap[b]?

/-- A run in which, before each call and at the end, destroyed blocks are overwritten arbitrarily. -/
inductive RunFreed : St → List (Nat × Call) → List Res → St → Prop where
  | nil {s t} : Freed s t → RunFreed s [] [] t
  | cons {s t a c l rs u} : Freed s t → RunFreed (exec t a c).1 l rs u →
      RunFreed s ((a, c) :: l) ((exec t a c).2 :: rs) u

theorem live_closed (s : St) : Closed (LiveS s) s.heap := by
  rintro b blk p ⟨cb, sp, h1, h2⟩ hb hp
  refine ⟨cb, sp, h1, ?_⟩
  clear h1
  generalize sp.tag = t at h2
  induction h2 with
  | self => exact .up hb hp .self
  | up e1 e2 _ ih => exact .up e1 e2 (ih hb)

theorem kept_sub {S : Nat → Prop} {h : Heap} (hc : Closed S h) {b a : Nat} (k : KeptBy h b a) (hb : S b) : S a := by
  induction k with
  | self => exact hb
  | up e1 e2 _ ih => exact ih (hc _ _ _ hb e1 e2)

theorem kept_congr {S : Nat → Prop} {h g : Heap} (A : Agree S h g) {b a : Nat} (hb : S b) :
    KeptBy g b a ↔ KeptBy h b a := by
  constructor
  · intro k
    induction k with
    | self => exact .self
    | up e1 e2 _ ih =>
      have e1' := e1
      rw [A.eq _ hb] at e1
      exact .up e1 e2 (ih (A.closed _ _ _ hb e1 e2))
  · intro k
    induction k with
    | self => exact .self
    | up e1 e2 _ ih =>
      exact .up (by rw [A.eq _ hb]; exact e1) e2 (ih (A.closed _ _ _ hb e1 e2))

/-- `t` is `s` with destroyed blocks overwritten; `S` contains what the handles of `s` need. -/
structure Sim (S : Nat → Prop) (s t : St) : Prop where
  cache : t.cache = s.cache
  addr : t.addr = s.addr
  agree : Agree S s.heap t.heap
  tags : ∀ cb sp, s.cache.cache.find? cb = some sp → S sp.tag

theorem Sim.get {S : Nat → Prop} {s t : St} (m : Sim S s t) {cb : Nat} {q : Sptr} (h : CApi.get s.cache cb = .ok q) :
    S q.tag := by
  unfold CApi.get at h
  split at h
  · cases h
  · split at h
    · rename_i x hx
      cases h
      exact m.tags cb q hx
    · cases h

theorem Sim.read {S : Nat → Prop} {s t : St} (m : Sim S s t) (r1 r2 : Res) (h : r2 = r1) :
    ∃ S', Sim S' (s, r1).1 (t, r2).1 ∧ (t, r2).2 = (s, r1).2 := ⟨S, m, h⟩

theorem Sim.write {S : Nat → Prop} {s t : St} (m : Sim S s t) {h1 h2 : Heap} (A : Agree S h1 h2) (r : Res) :
    ∃ S', Sim S' ({ s with heap := h1 }, r).1 ({ t with heap := h2 }, r).1 ∧
      (({ t with heap := h2 }, r) : St × Res).2 = (({ s with heap := h1 }, r) : St × Res).2 :=
  ⟨S, ⟨m.cache, m.addr, A, m.tags⟩, rfl⟩

theorem Sim.store {S : Nat → Prop} {s t : St} (m : Sim S s t) (a : Nat) {h1 h2 : Heap}
    (A : Agree (fun b => S b ∨ b = s.heap.length) h1 h2) :
    ∃ S', Sim S' (storeNew s a (h1, .ok s.heap.length)).1 (storeNew t a (h2, .ok s.heap.length)).1 ∧
      (storeNew t a (h2, .ok s.heap.length)).2 = (storeNew s a (h1, .ok s.heap.length)).2 := by
  unfold storeNew
  simp only [m.cache, m.addr]
  refine ⟨fun b => S b ∨ b = s.heap.length, ?_⟩
  cases hs : CApi.store s.cache ⟨a, s.heap.length⟩ with
  | mk c r =>
    have key : ∀ cb sp, c.cache.find? cb = some sp → S sp.tag ∨ sp.tag = s.heap.length := by
      intro cb sp hf
      unfold CApi.store at hs
      split at hs
      · cases hs; exact Or.inl (m.tags cb sp hf)
      · split at hs
        · cases hs; exact Or.inl (m.tags cb sp hf)
        · cases hs
          simp only [OMap.find?_insert] at hf
          split at hf
          · cases hf; exact Or.inr rfl
          · exact Or.inl (m.tags cb sp hf)
    cases r with
    | error e => exact ⟨⟨rfl, rfl, A, key⟩, rfl⟩
    | ok u => exact ⟨⟨rfl, rfl, A, key⟩, rfl⟩

theorem sim_exec {S : Nat → Prop} {s t : St} (m : Sim S s t) (a : Nat) (c : Call) :
    ∃ S', Sim S' (exec s a c).1 (exec t a c).1 ∧ (exec t a c).2 = (exec s a c).2 := by
  have A := m.agree
  have hd : ∀ b k, S b → Config.getDescription t.heap b k = Config.getDescription s.heap b k := by
    intro b k hb; unfold Config.getDescription; rw [A.len]; exact agree_desc A _ b k hb
  have hh : ∀ b k, S b → Config.hasValue t.heap b k = Config.hasValue s.heap b k := by
    intro b k hb; unfold Config.hasValue; rw [A.len]; exact agree_has A _ b k hb
  have ha : ∀ b, S b → Config.availableValues t.heap b = Config.availableValues s.heap b := by
    intro b hb; unfold Config.availableValues; rw [A.len]; exact agree_avail A _ b hb
  cases c <;> simp only [exec]
  case new =>
    have := m.store a (A.append [] none (by simp))
    simpa only [new, newNamed, emptyConfig, A.len] using this
  case newNamed n =>
    have := m.store a (A.append n none (by simp))
    simpa only [newNamed, emptyConfig, A.len] using this
  case destroy cb =>
    refine ⟨S, ⟨?_, m.addr, A, fun x sp hx => ?_⟩, rfl⟩
    · simp only [destroy, m.cache]
    · simp only [destroy, CApi.erase] at hx
      split at hx
      · exact m.tags x sp hx
      · split at hx
        · exact m.tags x sp hx
        · split at hx
          · simp only [OMap.find?_erase] at hx
            split at hx
            · cases hx
            · exact m.tags x sp hx
          · exact m.tags x sp hx
  case subblock cb k =>
    simp only [subblock, m.cache]
    cases hg : CApi.get s.cache cb with
    | error e => exact m.read _ _ rfl
    | ok q =>
      simp only
      have hq := m.get hg
      rcases agree_subblock A hq k with ⟨⟨e1, h1⟩, ⟨e2, h2⟩⟩ | ⟨n, h1, h2, h3⟩
      · cases hx : Config.subblock s.heap q.tag k with
        | mk h1' r1 =>
          cases hy : Config.subblock t.heap q.tag k with
          | mk h2' r2 =>
            rw [hx] at h1; rw [hy] at h2
            simp only at h1 h2
            subst h1; subst h2
            have := subblock_err hx
            subst this
            have := subblock_err hy
            subst this
            exact ⟨S, ⟨m.cache, m.addr, A, m.tags⟩, rfl⟩
      · cases hx : Config.subblock s.heap q.tag k with
        | mk h1' r1 =>
          cases hy : Config.subblock t.heap q.tag k with
          | mk h2' r2 =>
            rw [hx] at h1 h3; rw [hy] at h2 h3
            simp only at h1 h2 h3
            subst h1; subst h2
            have := subblock_ok hx
            subst this
            exact m.store a h3
  case subblockView cb k =>
    simp only [subblockView, m.cache]
    cases hg : CApi.get s.cache cb with
    | error e => exact m.read _ _ rfl
    | ok q =>
      simp only [Config.subblockView, A.eq _ (m.get hg)]
      cases hq : s.heap[q.tag]? with
      | none => simp only [storeNew]; exact ⟨S, ⟨m.cache, m.addr, A, m.tags⟩, trivial⟩
      | some blk =>
        simp only [A.len]
        exact m.store a (A.append k (some q.tag) (by rintro _ ⟨⟩; exact m.get hg))
  case getName cb =>
    simp only [getName, m.cache]
    cases hg : CApi.get s.cache cb with
    | error e => exact m.read _ _ rfl
    | ok q =>
      simp only [Config.getName, A.eq _ (m.get hg)]
      cases s.heap[q.tag]? with
      | none => exact m.read _ _ rfl
      | some blk => exact m.read _ _ rfl
  case getValue cb k =>
    simp only [getValue, m.cache]
    cases hg : CApi.get s.cache cb with
    | error e => exact m.read _ _ rfl
    | ok q =>
      simp only [agree_getAs A castString (m.get hg)]
      cases getValueAs castString s.heap q.tag k with
      | error e => exact m.read _ _ rfl
      | ok v => exact m.read _ _ rfl
  case getValueBool cb k =>
    simp only [getValueBool, m.cache]
    cases hg : CApi.get s.cache cb with
    | error e => exact m.read _ _ rfl
    | ok q =>
      simp only [agree_getAs A castBool (m.get hg)]
      cases getValueAs castBool s.heap q.tag k with
      | error e => exact m.read _ _ rfl
      | ok v => exact m.read _ _ rfl
  case getValueDefault cb k d =>
    simp only [getValueDefault, m.cache]
    cases hg : CApi.get s.cache cb with
    | error e => exact m.read _ _ rfl
    | ok q =>
      simp only [agree_getDef A castString (m.get hg)]
      cases getValueDef castString s.heap q.tag k d with
      | error e => exact m.read _ _ rfl
      | ok v => exact m.read _ _ rfl
  case getValueDefaultBool cb k d =>
    simp only [getValueDefaultBool, m.cache]
    cases hg : CApi.get s.cache cb with
    | error e => exact m.read _ _ rfl
    | ok q =>
      simp only [agree_getDef A castBool (m.get hg)]
      cases getValueDef castBool s.heap q.tag k d with
      | error e => exact m.read _ _ rfl
      | ok v => exact m.read _ _ rfl
  case getDescription cb k =>
    simp only [getDescription, m.cache]
    cases hg : CApi.get s.cache cb with
    | error e => exact m.read _ _ rfl
    | ok q =>
      simp only [hd _ k (m.get hg)]
      cases Config.getDescription s.heap q.tag k with
      | error e => exact m.read _ _ rfl
      | ok v => exact m.read _ _ rfl
  case setValue cb k v =>
    simp only [setValue, m.cache]
    cases hg : CApi.get s.cache cb with
    | error e => exact m.read _ _ rfl
    | ok q => exact ⟨S, ⟨rfl, m.addr, (agree_setValue A (m.get hg) k v []).1, m.tags⟩, rfl⟩
  case setValueDescr cb k v d =>
    simp only [setValueDescr, m.cache]
    cases hg : CApi.get s.cache cb with
    | error e => exact m.read _ _ rfl
    | ok q => exact ⟨S, ⟨rfl, m.addr, (agree_setValue A (m.get hg) k v d).1, m.tags⟩, rfl⟩
  case unsetValue cb k =>
    simp only [unsetValue, m.cache]
    cases hg : CApi.get s.cache cb with
    | error e => exact m.read _ _ rfl
    | ok q =>
      refine ⟨S, ⟨rfl, m.addr, ?_, m.tags⟩, rfl⟩
      simp only [Config.unsetValue, A.len]
      exact (agree_unset A _ _ k (m.get hg)).1
  case isReadOnly cb k =>
    simp only [isReadOnly, m.cache]
    cases hg : CApi.get s.cache cb with
    | error e => exact m.read _ _ rfl
    | ok q =>
      simp only [Config.isReadOnly, A.eq _ (m.get hg)]
      cases s.heap[q.tag]? with
      | none => exact m.read _ _ rfl
      | some blk => exact m.read _ _ rfl
  case markReadOnly cb k =>
    simp only [markReadOnly, m.cache]
    cases hg : CApi.get s.cache cb with
    | error e => exact m.read _ _ rfl
    | ok q =>
      refine ⟨S, ⟨rfl, m.addr, ?_, m.tags⟩, rfl⟩
      simp only [Config.markReadOnly, A.eq _ (m.get hg)]
      cases hq : s.heap[q.tag]? with
      | none => exact A
      | some blk => exact A.set hq rfl
  case mergeConfig cb o =>
    simp only [mergeConfig, m.cache]
    cases hg : CApi.get s.cache cb with
    | error e => exact m.read _ _ rfl
    | ok q =>
      simp only
      cases ho : CApi.get s.cache o with
      | error e => exact m.read _ _ rfl
      | ok r => exact ⟨S, ⟨rfl, m.addr, agree_merge A (m.get hg) (m.get ho), m.tags⟩, rfl⟩
  case hasValue cb k =>
    simp only [hasValue, m.cache]
    cases hg : CApi.get s.cache cb with
    | error e => exact m.read _ _ rfl
    | ok q =>
      simp only [hh _ k (m.get hg)]
      cases Config.hasValue s.heap q.tag k with
      | error e => exact m.read _ _ rfl
      | ok v => exact m.read _ _ rfl
  case availableValues cb =>
    simp only [availableValues, m.cache]
    cases hg : CApi.get s.cache cb with
    | error e => exact m.read _ _ rfl
    | ok q =>
      simp only [ha _ (m.get hg)]
      cases Config.availableValues s.heap q.tag with
      | error e => exact m.read _ _ rfl
      | ok v => exact m.read _ _ rfl

/-- Restriction to what is alive. -/
theorem Sim.live {S : Nat → Prop} {s t : St} (m : Sim S s t) : Sim (LiveS s) s t := by
  have sub : ∀ b, LiveS s b → S b := by
    rintro b ⟨cb, sp, h1, h2⟩
    exact kept_sub m.agree.closed h2 (m.tags cb sp h1)
  exact ⟨m.cache, m.addr, ⟨m.agree.len, fun b hb => m.agree.eq b (sub b hb), live_closed s⟩,
    fun cb sp h => ⟨cb, sp, h, .self⟩⟩

theorem Sim.freed {s t u : St} (m : Sim (LiveS s) s t) (f : Freed t u) : Sim (LiveS s) s u := by
  refine ⟨by rw [f.cache, m.cache], by rw [f.addr, m.addr], ⟨by rw [f.len, m.agree.len], fun b hb => ?_, live_closed s⟩, m.tags⟩
  obtain ⟨cb, sp, h1, h2⟩ := hb
  rw [f.live b ⟨cb, sp, by rw [m.cache]; exact h1, (kept_congr m.agree (m.tags cb sp h1)).2 h2⟩]
  exact m.agree.eq b ⟨cb, sp, h1, h2⟩

theorem sim_run {s t : St} (m : Sim (LiveS s) s t) {calls : List (Nat × Call)} {rs : List Res} {u : St}
    (r : RunFreed t calls rs u) : rs = (execAll s calls).2 ∧ Sim (LiveS (execAll s calls).1) (execAll s calls).1 u := by
  induction r generalizing s with
  | nil f => exact ⟨rfl, m.freed f⟩
  | cons f _ ih =>
    rename_i s0 t0 a c l rs' u' hr
    have m1 := m.freed f
    obtain ⟨S', m2, e2⟩ := sim_exec m1 a c
    obtain ⟨e3, m3⟩ := ih m2.live
    simp only [execAll]
    exact ⟨by rw [e2, e3], m3⟩

/-- No use after free: let the memory of destroyed blocks be overwritten with anything at any time; every
    call of every C program still returns the same, and every block that is alive ends up the same.
    A block is alive while a handle to it, or to a view of it, has not been destroyed. -/
theorem C125_no_use_after_free (calls : List (Nat × Call)) (rs : List Res) (u : St)
    (r : RunFreed St.init calls rs u) :
    rs = (execAll St.init calls).2 ∧ u.cache = (execAll St.init calls).1.cache ∧
    ∀ b, LiveS (execAll St.init calls).1 b → u.heap[b]? = (execAll St.init calls).1.heap[b]? := by
  have m0 : Sim (LiveS St.init) St.init St.init :=
    ⟨rfl, rfl, ⟨rfl, fun _ _ => rfl, live_closed _⟩, fun cb sp h => ⟨cb, sp, h, .self⟩⟩
  obtain ⟨e, m⟩ := sim_run m0 r
  exact ⟨e, m.cache, m.agree.eq⟩

/-- In particular the parent of a view stays alive after its own handle has been destroyed. -/
theorem C125_view_keeps_parent {s : St} {v : Nat} {sp : Sptr} {blk : Block} {p : Nat}
    (h1 : s.cache.cache.find? v = some sp) (h2 : s.heap[sp.tag]? = some blk) (h3 : blk.parent = some p) {cb : Nat}
    (hne : cb ≠ v) : LiveS (exec s 0 (.destroy cb)).1 p := by
  refine ⟨v, sp, ?_, .up h2 h3 .self⟩
  simp only [exec, destroy, CApi.erase]
  split
  · exact h1
  · split
    · exact h1
    · split
      · simp only [OMap.find?_erase]
        rw [if_neg (fun e => hne e.symm)]
        exact h1
      · exact h1

/-- A program: a block at address 10 with a view at 20; the block's handle is destroyed; the view is
    written and read; the allocator never returns 10 again while the view lives. -/
def demoCalls : List (Nat × Call) :=
  [(10, .newNamed (c!"top")), (20, .subblockView 10 (c!"a")), (99, .destroy 10), (99, .setValue 20 (c!"k") (c!" v ")),
   (99, .getValue 20 (c!"k")), (99, .getValue 10 (c!"a:k")), (30, .new), (99, .hasValue 20 (c!"k"))]

example : (execAll St.init demoCalls).2 = [.handle 10, .handle 20, .void, .void, newString (c!"v"), .str none,
    .handle 30, .bool true] := by decide +kernel

end Vital.CApi.Cfg
