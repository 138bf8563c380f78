import Verif.Algo.Registry
/-
  Properties of nested algorithm configuration: C46, C88, C89.
-/
namespace Vital.Algo
open Vital Vital.Config

variable {δ : Type}

/-! ### Specification vocabulary -/

/-- What is asked of a plugin's `get_configuration()`: it uses config blocks through their API only,
    returns a new root block, leaves the blocks, objects and registrations that existed as they were. -/
def WellBehaved (L : Lib δ) : Prop := ∀ s a s' k, Reachable s.cfg →
  L.getCfg s a = (s', .ok k) →
  (∃ ops : List Config.Op, s'.cfg = ops.foldl Config.step s.cfg) ∧ IsRoot s'.cfg k ∧ s.cfg.length ≤ k ∧
  (∀ r, r < s.cfg.length → s'.cfg[r]? = s.cfg[r]?) ∧ s'.quals = s.quals ∧ s'.byCls = s.byCls ∧
  (∀ (x : Nat) (o : Inst δ), s.objs[x]? = some o → s'.objs[x]? = some o)

/-- Every registered object exists (true after every history, see `live_of_run`). -/
def RegistryLive (s : St δ) : Prop := ∀ q a, s.quals.find? q = some a → ∃ o, s.objs[a]? = some o

theorem live_of_run (L : Lib δ) (ops : List (AOp δ)) : RegistryLive (run L ops) := by
  intro q a h
  obtain ⟨o, _, ho, _⟩ := last_live ((quals_iff L ops q a).1 h)
  exact ⟨o, ho⟩

/-- The default `get_configuration()` is well behaved. -/
theorem default_well_behaved (L : Lib δ) (h : L.getCfg = defaultGetCfg L) : WellBehaved L := by
  intro s a s' k _ e
  rw [h] at e
  unfold defaultGetCfg at e
  cases ho : s.objs[a]? with
  | none => rw [ho] at e; simp at e
  | some o =>
    rw [ho] at e
    simp only [emptyConfig, Prod.mk.injEq, Except.ok.injEq] at e
    obtain ⟨rfl, rfl⟩ := e
    refine ⟨⟨[.emptyConfig (L.typeName o.cls)], rfl⟩, ⟨mkBlock (L.typeName o.cls) none, by simp, rfl⟩, Nat.le_refl _, ?_, rfl, rfl, fun _ _ h => h⟩
    intro r hr
    simp [List.getElem?_append_left hr]

/-! ### Lemmas -/

theorem hasImpl_find {s : St δ} {t : Str} (ht : t ≠ []) {i : Str} (h : hasImplName s t i = true) :
    ∃ a, s.quals.find? (qualified t i) = some a := by
  rw [hasImplName, List.contains_iff_mem, mem_registered ht, OMap.mem_keys_iff] at h
  exact Option.isSome_iff_exists.1 h

theorem comment_ok {s : St δ} (hl : RegistryLive s) {t : Str} (ht : t ≠ []) : ∀ (rs : List Str) (acc : Str),
    (∀ r ∈ rs, r ∈ registeredNames s t) → ∃ c, commentLoop s t rs acc = .ok (acc ++ c)
  | [], acc, _ => ⟨[], by simp [commentLoop]⟩
  | r :: rs, acc, h => by
    obtain ⟨a, ha⟩ := Option.isSome_iff_exists.1 ((OMap.mem_keys_iff _ _).1 ((mem_registered ht r).1 (h r (by simp))))
    obtain ⟨o, ho⟩ := hl _ _ ha
    obtain ⟨c, hc⟩ := comment_ok hl ht rs (acc ++ c!"\n\t- " ++ r ++ (if o.descr ≠ [] then c!" :: " ++ o.descr else []))
      (fun x hx => h x (by simp [hx]))
    refine ⟨c!"\n\t- " ++ r ++ (if o.descr ≠ [] then c!" :: " ++ o.descr else []) ++ c, ?_⟩
    unfold commentLoop
    rw [ha]
    simp only
    rw [ho]
    simp only
    rw [hc]
    simp

theorem typeComment_ok {s : St δ} (hl : RegistryLive s) {t : Str} (ht : t ≠ []) (name : Str) :
    ∃ c, typeComment s t name = .ok c := by
  obtain ⟨c, h⟩ := comment_ok hl ht (registeredNames s t)
    (c!"Algorithm to use for '" ++ name ++ c!"'.\nMust be one of the following options:") (fun _ h => h)
  exact ⟨_, h⟩

/-- A new view of a live handle reads the entries below its name. -/
theorem view_reads {h : Heap} (hr : Reachable h) {b : Nat} (hb : b < h.length) (n key : Str) :
    subblockView h b n = (h ++ [mkBlock n (some b)], .ok h.length) ∧
    getValue (h ++ [mkBlock n (some b)]) h.length key =
      (match getValue h b (n ++ c!":" ++ key) with
       | .error (.noSuch _) => .error (.noSuch key)
       | r => r) ∧
    hasValue (h ++ [mkBlock n (some b)]) h.length key = hasValue h b (n ++ c!":" ++ key) ∧
    getDescription (h ++ [mkBlock n (some b)]) h.length key = getDescription h b (n ++ c!":" ++ key) := by
  have w := hr.wf
  obtain ⟨r, pre, rb, hv, hrb, _⟩ := live_view w hb
  have hb' := List.getElem?_eq_some_iff.2 ⟨hb, rfl⟩
  have e0 : subblockView h b n = (h ++ [mkBlock n (some b)], .ok h.length) := by
    simp only [subblockView, hb']
  have hr2 : Reachable (h ++ [mkBlock n (some b)]) := by
    have := hr.step (.subblockView b n)
    simp only [Config.step, e0] at this; exact this
  have w2 := hr2.wf
  have hv2 : ViewOf (h ++ [mkBlock n (some b)]) b r pre :=
    hv.prims (by
      have := step_prims h (.subblockView b n)
      simp only [Config.step, e0] at this; exact this)
  have hv3 : ViewOf (h ++ [mkBlock n (some b)]) h.length r (pre ++ ((mkBlock n (some b)).name ++ [':'])) :=
    .view (by simp) rfl hv2
  have hrb2 : (h ++ [mkBlock n (some b)])[r]? = some rb := by
    rw [List.getElem?_append_left (lt_of_some hrb)]; exact hrb
  have ek : pre ++ ((mkBlock n (some b)).name ++ [':']) ++ key = pre ++ (n ++ c!":" ++ key) := by
    simp [mkBlock]
  refine ⟨e0, ?_, ?_, ?_⟩
  · rw [get_view w2 hv3 hrb2, get_view w hv hrb, ek]
    cases rb.store.find? (pre ++ (n ++ c!":" ++ key)) <;> rfl
  · rw [has_view w2 hv3 hrb2, has_view w hv hrb, ek]
  · rw [desc_view w2 hv3 hrb2, desc_view w hv hrb, ek]

/-- The steps of a successful `get_nested_algo_configuration` with an algorithm. -/
theorem getNested_ok {L : Lib δ} {s s1 : St δ} {t name : Str} {config a : Nat} {o : Inst δ}
    (ho : s.objs[a]? = some o) (hg : getNested L s t name config (some a) = (s1, .ok ())) :
    ∃ comment h1 h2 v s3 k h4, typeComment s t name = .ok comment ∧
      setValue s.cfg config (typeKey name) o.impl comment = (h1, .ok ()) ∧
      subblockView h1 config (name ++ blockSep ++ o.impl) = (h2, .ok v) ∧
      L.getCfg { s with cfg := h2 } a = (s3, .ok k) ∧
      mergeConfig s3.cfg v k = (h4, .ok ()) ∧ s1 = { s3 with cfg := h4 } := by
  unfold getNested at hg
  cases hc : typeComment s t name with
  | error e => rw [hc] at hg; simp at hg
  | ok comment =>
    rw [hc] at hg
    simp only [ho] at hg
    cases h1 : setValue s.cfg config (typeKey name) o.impl comment with
    | mk h1' r1 =>
      rw [h1] at hg
      cases r1 with
      | error e => simp at hg
      | ok u =>
        simp only at hg
        cases h2 : subblockView h1' config (name ++ blockSep ++ o.impl) with
        | mk h2' r2 =>
          rw [h2] at hg
          cases r2 with
          | error e => simp at hg
          | ok v =>
            simp only at hg
            cases h3 : L.getCfg { s with cfg := h2' } a with
            | mk s3 r3 =>
              rw [h3] at hg
              cases r3 with
              | error e => simp at hg
              | ok k =>
                simp only at hg
                cases h4 : mergeConfig s3.cfg v k with
                | mk h4' r4 =>
                  rw [h4] at hg
                  simp only [Prod.mk.injEq] at hg
                  obtain ⟨rfl, rfl⟩ := hg
                  exact ⟨comment, h1', h2', v, s3, k, h4', rfl, h1, h2, h3, h4, rfl⟩

/-! ### C46: get, then set, gives the nested algorithm the same configuration -/

/-- `get_nested_algo_configuration(type, name, config, algo)`, when it returns normally, has stored
    `algo`'s implementation name as `name:type`, and below `name:impl` every entry of the configuration
    block `k` that `algo->get_configuration()` returned (in state `s0`).  `set_nested_algo_configuration`
    on the same config then makes a clone of the object registered for that implementation and calls
    its `set_configuration` with a block `v` that reads all these entries; that call alone decides the
    outcome.  (Implementation names with white space at an end are excluded: `set_value` strips it.) -/
theorem C46_get_then_set {L : Lib δ} (hwb : WellBehaved L) {s s1 : St δ} (hr : Reachable s.cfg)
    (hlive : RegistryLive s) {t name : Str} (ht : t ≠ []) {config a : Nat} {o : Inst δ}
    (ho : s.objs[a]? = some o) (htrim : Trimmed o.impl) (hreg : hasImplName s t o.impl = true)
    (hg : getNested L s t name config (some a) = (s1, .ok ())) (p : Option Nat) :
    ∃ s' s0 k b ob s2 v, L.getCfg s' a = (s0, .ok k) ∧ s'.objs = s.objs ∧
      getValue s1.cfg config (name ++ c!":type") = .ok o.impl ∧
      (∀ key, hasValue s0.cfg k key = .ok true →
        getValue s1.cfg config (name ++ c!":" ++ o.impl ++ c!":" ++ key) = getValue s0.cfg k key) ∧
      s.quals.find? (t ++ c!":" ++ o.impl) = some b ∧ s1.objs[b]? = some ob ∧
      s2 = { s1 with objs := s1.objs ++ [ob], cfg := s2.cfg } ∧
      (∀ key, hasValue s0.cfg k key = .ok true → getValue s2.cfg v key = getValue s0.cfg k key) ∧
      (∀ key d, hasValue s0.cfg k key = .ok true → getDescription s0.cfg k key = .ok d → d ≠ [] →
        getDescription s2.cfg v key = .ok d) ∧
      setNested L s1 t name config p =
        ((L.setCfg s2 s1.objs.length v).1, some s1.objs.length, (L.setCfg s2 s1.objs.length v).2) := by
  obtain ⟨comment, h1, h2, v1, s3, k, h4, e1, e2, e3, e4, e5, rfl⟩ := getNested_ok ho hg
  have w := hr.wf
  obtain ⟨r, pre, rb, hv, hrb, hrp, hro, hh1⟩ := set_ok w e2
  have hcl : config < s.cfg.length := hv.lt
  have hr1 : Reachable h1 := by
    have := hr.step (.setValue config (typeKey name) o.impl comment)
    simp only [Config.step, e2] at this; exact this
  have l1 : h1.length = s.cfg.length := by rw [hh1]; simp
  have hcl1 : config < h1.length := by rw [l1]; exact hcl
  have hval1 : getValue h1 config (typeKey name) = .ok o.impl := by
    obtain ⟨⟨x, hx, hx', _⟩, _⟩ := C01_set_then_get hr e2
    have pr : Prim s.cfg h1 := by rw [hh1]; exact .put hrb hrp hro
    rw [get_view (wf_prim pr w) (hv.prims (.one pr)) (by rw [hh1]; exact set_same hrb), put_find, if_pos rfl,
      trim_eq_self htrim]
  obtain ⟨f0, -, -, -⟩ := view_reads hr1 hcl1 (name ++ blockSep ++ o.impl) []
  rw [f0] at e3
  simp only [Prod.mk.injEq, Except.ok.injEq] at e3
  obtain ⟨rfl, rfl⟩ := e3
  have hr2 : Reachable (h1 ++ [mkBlock (name ++ blockSep ++ o.impl) (some config)]) := by
    have := hr1.step (.subblockView config (name ++ blockSep ++ o.impl))
    simp only [Config.step, f0] at this; exact this
  obtain ⟨⟨ops, hops⟩, hkroot, hkge, hkeep, hq, hbc, hobj⟩ := hwb _ _ _ _ hr2 e4
  have hr3 : Reachable s3.cfg := by rw [hops]; exact hr2.steps ops
  have p13 : Prims h1 s3.cfg := by
    rw [hops]
    have := step_prims h1 (.subblockView config (name ++ blockSep ++ o.impl))
    simp only [Config.step, f0] at this
    exact this.trans (foldl_prims ops _)
  have p01 : Prims s.cfg h1 := by
    have := step_prims s.cfg (.setValue config (typeKey name) o.impl comment)
    simp only [Config.step, e2] at this; exact this
  have hv1 : ViewOf h1 config r pre := hv.prims p01
  have hv3 : ViewOf s3.cfg config r pre := hv1.prims p13
  have hvv : ViewOf s3.cfg h1.length r (pre ++ ((name ++ blockSep ++ o.impl) ++ [':'])) := by
    refine .view (blk := mkBlock (name ++ blockSep ++ o.impl) (some config)) ?_ rfl hv3
    rw [hkeep h1.length (by simp)]; simp
  have hrlt : r < s.cfg.length := lt_of_some hrb
  have hne : r ≠ k := by simp only [List.length_append] at hkge; omega
  obtain ⟨K, eK, pK⟩ := hkroot
  obtain ⟨ks, g1, -, -, g2⟩ := C10_available_root hr3 ⟨K, eK, pK⟩
  obtain ⟨done, rest, h4', res, m1, m2, m3, m4, m5, m6, m7, m8⟩ :=
    C11_merge hr3 hvv (.root eK pK) hne g1 (fun key hk => (g2 key).1 hk)
  rw [e5] at m2
  simp only [Prod.mk.injEq] at m2
  obtain ⟨rfl, rfl⟩ := m2
  have hrest : rest = [] := by
    rcases m4 with ⟨h, _⟩ | ⟨_, _, _, _, _, _, h⟩
    · exact h
    · cases h
  subst hrest
  rw [List.append_nil] at m1
  subst m1
  have hr4 : Reachable h4 := by
    have := hr3.step (.mergeConfig h1.length k)
    simp only [Config.step, e5] at this; exact this
  have p34 : Prims s3.cfg h4 := by
    have := step_prims s3.cfg (.mergeConfig h1.length k)
    simp only [Config.step, e5] at this; exact this
  have hv4 : ViewOf h4 config r pre := hv3.prims p34
  have hcl4 : config < h4.length := hv4.lt
  have hr13 : s3.cfg[r]? = h1[r]? := by
    rw [hkeep r (by simp; omega), List.getElem?_append_left (by omega)]
  have hval4 : getValue h4 config (typeKey name) = .ok o.impl := by
    rw [(m7 config (typeKey name) hv3.lt ?_).1]
    · obtain ⟨rb1, hrb1⟩ : ∃ rb1, h1[r]? = some rb1 := by
        rw [hh1]; exact ⟨_, set_same hrb⟩
      rw [get_congr hr1.wf hr3.wf hv1 hv3 hrb1 (by rw [hr13]; exact hrb1)]
      exact hval1
    · rintro key hk ⟨r1, fk, ⟨p1, v1, q1⟩, ⟨p2, v2, q2⟩⟩
      obtain ⟨-, rfl⟩ := v1.unique hvv
      obtain ⟨-, rfl⟩ := v2.unique hv3
      rw [q1] at q2
      have : o.impl ++ ':' :: key = c!"type" := by
        have q3 : pre ++ (name ++ (blockSep ++ (o.impl ++ ':' :: key))) = pre ++ (name ++ (blockSep ++ c!"type")) := by
          simpa [typeKey] using q2
        exact List.append_cancel_left (List.append_cancel_left (List.append_cancel_left q3))
      have hm : ':' ∈ (c!"type") := by rw [← this]; simp
      revert hm; decide
  have hvals : ∀ key, hasValue s3.cfg k key = .ok true →
      getValue h4 config (name ++ c!":" ++ o.impl ++ c!":" ++ key) = getValue s3.cfg k key := by
    intro key hk
    rw [← m5 key ((g2 key).2 hk)]
    obtain ⟨rb4, hrb4⟩ : ∃ rb4, h4[r]? = some rb4 := List.getElem?_eq_some_iff.2 ⟨by
      have := hv4.root_of; obtain ⟨b, hb, _⟩ := this; exact lt_of_some hb, rfl⟩ |> fun h => ⟨_, h⟩
    have hk' : ∃ x, getValue h4 h1.length key = .ok x := by
      rw [m5 key ((g2 key).2 hk)]
      rw [has_view hr3.wf (.root eK pK) eK] at hk
      rw [get_view hr3.wf (.root eK pK) eK]
      simp only [Except.ok.injEq, OMap.contains] at hk
      obtain ⟨x, hx⟩ := Option.isSome_iff_exists.1 hk
      exact ⟨x, by rw [hx]⟩
    obtain ⟨x, hx⟩ := hk'
    rw [get_view hr4.wf (hvv.prims p34) hrb4] at hx
    rw [get_view hr4.wf (hvv.prims p34) hrb4, get_view hr4.wf hv4 hrb4]
    have ek : pre ++ ((name ++ blockSep ++ o.impl) ++ [':']) ++ key = pre ++ (name ++ c!":" ++ o.impl ++ c!":" ++ key) := by
      simp [blockSep]
    rw [ek] at hx ⊢
    cases hf : rb4.store.find? (pre ++ (name ++ c!":" ++ o.impl ++ c!":" ++ key)) with
    | none => rw [hf] at hx; simp at hx
    | some y => rfl
  have hdescs : ∀ key d, hasValue s3.cfg k key = .ok true → getDescription s3.cfg k key = .ok d → d ≠ [] →
      getDescription h4 config (name ++ c!":" ++ o.impl ++ c!":" ++ key) = .ok d := by
    intro key d hk hd hd0
    have := m6 key ((g2 key).2 hk) d hd hd0
    obtain ⟨rb4, hrb4⟩ : ∃ rb4, h4[r]? = some rb4 := List.getElem?_eq_some_iff.2 ⟨by
      have := hv4.root_of; obtain ⟨b, hb, _⟩ := this; exact lt_of_some hb, rfl⟩ |> fun h => ⟨_, h⟩
    rw [desc_view hr4.wf (hvv.prims p34) hrb4] at this
    rw [desc_view hr4.wf hv4 hrb4]
    have ek : pre ++ ((name ++ blockSep ++ o.impl) ++ [':']) ++ key = pre ++ (name ++ c!":" ++ o.impl ++ c!":" ++ key) := by
      simp [blockSep]
    rw [ek] at this
    exact this
  obtain ⟨b, hb⟩ := hasImpl_find ht hreg
  obtain ⟨ob0, hob0⟩ := hlive _ _ hb
  have hob : s3.objs[b]? = some ob0 := hobj b ob0 hob0
  have hreg3 : hasImplName ({ s3 with cfg := h4 } : St δ) t o.impl = true := by
    have : hasImplName ({ s3 with cfg := h4 } : St δ) t o.impl = hasImplName s t o.impl := by
      unfold hasImplName registeredNames
      simp only [hq]
    rw [this]; exact hreg
  have hval4' : getValue h4 config (name ++ c!":type") = .ok o.impl := by
    rw [← hval4]; simp [typeKey, blockSep]
  obtain ⟨q0, -, -, -⟩ := view_reads hr4 hcl4 (name ++ blockSep ++ o.impl) []
  refine ⟨_, s3, k, b, ob0, { s3 with cfg := h4 ++ [mkBlock (name ++ blockSep ++ o.impl) (some config)], objs := s3.objs ++ [ob0] },
    h4.length, e4, rfl, hval4', hvals, hb, hob, rfl, ?_, ?_, ?_⟩
  · intro key hk
    obtain ⟨-, q1, -, -⟩ := view_reads hr4 hcl4 (name ++ blockSep ++ o.impl) key
    simp only
    rw [q1]
    have := hvals key hk
    rw [show name ++ blockSep ++ o.impl ++ c!":" ++ key = name ++ c!":" ++ o.impl ++ c!":" ++ key from rfl, this]
    rw [has_view hr3.wf (.root eK pK) eK] at hk
    rw [get_view hr3.wf (.root eK pK) eK]
    simp only [Except.ok.injEq, OMap.contains] at hk
    obtain ⟨x, hx⟩ := Option.isSome_iff_exists.1 hk
    rw [hx]
  · intro key d hk hd hd0
    obtain ⟨-, -, -, q1⟩ := view_reads hr4 hcl4 (name ++ blockSep ++ o.impl) key
    simp only
    rw [q1]
    exact hdescs key d hk hd hd0
  · have hhas : hasValue h4 config (typeKey name) = .ok true := by
      obtain ⟨rb4, hrb4⟩ : ∃ rb4, h4[r]? = some rb4 := List.getElem?_eq_some_iff.2 ⟨by
        have := hv4.root_of; obtain ⟨b, hb, _⟩ := this; exact lt_of_some hb, rfl⟩ |> fun h => ⟨_, h⟩
      rw [get_view hr4.wf hv4 hrb4] at hval4
      rw [has_view hr4.wf hv4 hrb4]
      cases hf : rb4.store.find? (pre ++ typeKey name) with
      | none => rw [hf] at hval4; simp at hval4
      | some y => simp [OMap.contains, hf]
    unfold setNested
    simp only [hhas, hval4, hreg3, if_true]
    have hcr : create ({ s3 with cfg := h4 } : St δ) t o.impl =
        ({ s3 with cfg := h4, objs := s3.objs ++ [ob0] }, .ok (some s3.objs.length)) := by
      simp only [create, hq, hb, cloneObj, hob]
    rw [hcr]
    simp only [q0]

/-- Nothing but `name:type` and the entries below `name:impl` changes in any block that existed. -/
theorem C46_get_frame {L : Lib δ} (hwb : WellBehaved L) {s s1 : St δ} (hr : Reachable s.cfg) {t name : Str}
    {config a : Nat} {o : Inst δ} (ho : s.objs[a]? = some o)
    (hg : getNested L s t name config (some a) = (s1, .ok ())) {b' : Nat} {k' : Str} (hb : b' < s.cfg.length)
    (hn1 : ¬ SameEntry s.cfg config (name ++ c!":type") b' k')
    (hn2 : ∀ key, ¬ SameEntry s.cfg config (name ++ c!":" ++ o.impl ++ c!":" ++ key) b' k') :
    getValue s1.cfg b' k' = getValue s.cfg b' k' := by
  obtain ⟨comment, h1, h2, v1, s3, k, h4, e1, e2, e3, e4, e5, rfl⟩ := getNested_ok ho hg
  have w := hr.wf
  obtain ⟨r, pre, rb, hv, hrb, hrp, hro, hh1⟩ := set_ok w e2
  have hcl : config < s.cfg.length := hv.lt
  have hr1 : Reachable h1 := by
    have := hr.step (.setValue config (typeKey name) o.impl comment)
    simp only [Config.step, e2] at this; exact this
  have l1 : h1.length = s.cfg.length := by rw [hh1]; simp
  have hcl1 : config < h1.length := by rw [l1]; exact hcl
  obtain ⟨f0, -, -, -⟩ := view_reads hr1 hcl1 (name ++ blockSep ++ o.impl) []
  rw [f0] at e3
  simp only [Prod.mk.injEq, Except.ok.injEq] at e3
  obtain ⟨rfl, rfl⟩ := e3
  have hr2 : Reachable (h1 ++ [mkBlock (name ++ blockSep ++ o.impl) (some config)]) := by
    have := hr1.step (.subblockView config (name ++ blockSep ++ o.impl))
    simp only [Config.step, f0] at this; exact this
  obtain ⟨⟨ops, hops⟩, hkroot, hkge, hkeep, hq, hbc, hobj⟩ := hwb _ _ _ _ hr2 e4
  have hr3 : Reachable s3.cfg := by rw [hops]; exact hr2.steps ops
  have p13 : Prims h1 s3.cfg := by
    rw [hops]
    have := step_prims h1 (.subblockView config (name ++ blockSep ++ o.impl))
    simp only [Config.step, f0] at this
    exact this.trans (foldl_prims ops _)
  have p01 : Prims s.cfg h1 := by
    have := step_prims s.cfg (.setValue config (typeKey name) o.impl comment)
    simp only [Config.step, e2] at this; exact this
  have hvv : ViewOf s3.cfg h1.length r (pre ++ ((name ++ blockSep ++ o.impl) ++ [':'])) := by
    refine .view (blk := mkBlock (name ++ blockSep ++ o.impl) (some config)) ?_ rfl ((hv.prims p01).prims p13)
    rw [hkeep h1.length (by simp)]; simp
  have hrlt : r < s.cfg.length := lt_of_some hrb
  have hne : r ≠ k := by simp only [List.length_append] at hkge; omega
  obtain ⟨K, eK, pK⟩ := hkroot
  obtain ⟨ks, g1, -, -, g2⟩ := C10_available_root hr3 ⟨K, eK, pK⟩
  obtain ⟨done, rest, h4', res, m1, m2, m3, m4, m5, m6, m7, m8⟩ :=
    C11_merge hr3 hvv (.root eK pK) hne g1 (fun key hk => (g2 key).1 hk)
  rw [e5] at m2
  simp only [Prod.mk.injEq] at m2
  obtain ⟨rfl, rfl⟩ := m2
  obtain ⟨r', pre', rb', hv', hrb', -⟩ := live_view w hb
  have v1' := hv'.prims p01
  have v3' := v1'.prims p13
  show getValue h4 b' k' = _
  rw [(m7 b' k' v3'.lt ?_).1]
  · have hstep := (C01_set_then_get hr e2).2 b' k' hb (by
      intro hse; apply hn1
      have ek : name ++ c!":type" = typeKey name := by simp [typeKey, blockSep]
      rw [ek]; exact hse)
    rw [← hstep]
    obtain ⟨x, hx, -⟩ := v1'.root_of
    refine get_congr hr1.wf hr3.wf v1' v3' hx ?_ k'
    rw [hkeep r' (by have := lt_of_some hx; simp; omega), List.getElem?_append_left (lt_of_some hx)]
    exact hx
  · rintro key hk ⟨r1, fk, ⟨p1, v1, q1⟩, ⟨p2, v2, q2⟩⟩
    obtain ⟨rfl, rfl⟩ := v1.unique hvv
    obtain ⟨rfl, rfl⟩ := v2.unique v3'
    refine hn2 key ⟨_, fk, ⟨_, hv, ?_⟩, ⟨_, hv', q2⟩⟩
    rw [q1]; simp [blockSep]

/-- Without an algorithm, `get_nested_algo_configuration` keeps a `name:type` entry that is there, and
    otherwise stores an empty one. -/
theorem C46_get_null {L : Lib δ} {s : St δ} (hr : Reachable s.cfg) (hlive : RegistryLive s) {t name : Str}
    (ht : t ≠ []) {config : Nat} (hc : config < s.cfg.length) :
    (hasValue s.cfg config (name ++ c!":type") = .ok true ∧ getNested L s t name config none = (s, .ok ())) ∨
    (hasValue s.cfg config (name ++ c!":type") = .ok false ∧ ∃ comment,
      getNested L s t name config none =
        ({ s with cfg := (setValue s.cfg config (name ++ c!":type") [] comment).1 },
         (setValue s.cfg config (name ++ c!":type") [] comment).2)) := by
  have w := hr.wf
  obtain ⟨c, hcm⟩ := typeComment_ok hlive ht name
  obtain ⟨r, pre, rb, hv, hrb, _⟩ := live_view w hc
  have ek : name ++ c!":type" = typeKey name := by simp [typeKey, blockSep]
  have hh := has_view w hv hrb (typeKey name)
  rw [ek]
  cases hb : rb.store.contains (pre ++ typeKey name) with
  | true =>
    left
    rw [hb] at hh
    exact ⟨hh, by simp only [getNested, hcm, hh]⟩
  | false =>
    right
    rw [hb] at hh
    exact ⟨hh, c, by simp only [getNested, hcm, hh]⟩

/-- `set_nested_algo_configuration` does nothing at all when `name:type` is missing or does not name a
    registered implementation. -/
theorem C46_set_unknown {L : Lib δ} {s : St δ} {t name : Str} {config : Nat} (p : Option Nat)
    (h : hasValue s.cfg config (name ++ c!":type") = .ok false ∨
      ∃ i, hasValue s.cfg config (name ++ c!":type") = .ok true ∧
        getValue s.cfg config (name ++ c!":type") = .ok i ∧ i ∉ registeredNames s t) :
    setNested L s t name config p = (s, p, .ok ()) := by
  have ek : name ++ c!":type" = typeKey name := by simp [typeKey, blockSep]
  rw [ek] at h
  rcases h with h | ⟨i, h1, h2, h3⟩
  · simp only [setNested, h]
  · have : hasImplName s t i = false := by
      rw [hasImplName]
      cases hc : (registeredNames s t).contains i with
      | false => rfl
      | true => exact absurd (List.contains_iff_mem.1 hc) h3
    simp only [setNested, h1, h2, this]
    rfl

/-- `check_nested_algo_configuration`, for a non-empty type name: false without `name:type`, false when it
    does not name a registered implementation, and otherwise exactly the answer of the
    `check_configuration` of the registered object on a block that reads the entries below
    `name:impl`.  In particular the check itself never follows a null pointer. -/
theorem C46_check {L : Lib δ} {s : St δ} (hr : Reachable s.cfg) {t name : Str}
    (ht : t ≠ []) {config : Nat} (hc : config < s.cfg.length) :
    (hasValue s.cfg config (name ++ c!":type") = .ok false ∧ checkNested L s t name config = (s, .ok false)) ∨
    ∃ i, hasValue s.cfg config (name ++ c!":type") = .ok true ∧ getValue s.cfg config (name ++ c!":type") = .ok i ∧
      ((i ∉ registeredNames s t ∧ checkNested L s t name config = (s, .ok false)) ∨
       ∃ a h v, i ∈ registeredNames s t ∧ s.quals.find? (t ++ c!":" ++ i) = some a ∧
         checkNested L s t name config = L.checkCfg { s with cfg := h } a v ∧
         (∀ key x, getValue h v key = .ok x ↔ getValue s.cfg config (name ++ c!":" ++ i ++ c!":" ++ key) = .ok x) ∧
         (∀ b, b < s.cfg.length → h[b]? = s.cfg[b]?)) := by
  have w := hr.wf
  obtain ⟨r, pre, rb, hv, hrb, _⟩ := live_view w hc
  have ek : name ++ c!":type" = typeKey name := by simp [typeKey, blockSep]
  have hh := has_view w hv hrb (typeKey name)
  have hg := get_view w hv hrb (typeKey name)
  rw [ek]
  cases hf : rb.store.find? (pre ++ typeKey name) with
  | none =>
    left
    rw [OMap.contains, hf] at hh
    exact ⟨hh, by simp only [checkNested, hh]; rfl⟩
  | some i =>
    right
    rw [OMap.contains, hf] at hh
    rw [hf] at hg
    refine ⟨i, hh, hg, ?_⟩
    by_cases hi : i ∈ registeredNames s t
    · right
      have hreg : hasImplName s t i = true := List.contains_iff_mem.2 hi
      obtain ⟨a, ha⟩ := hasImpl_find ht hreg
      refine ⟨a, s.cfg ++ [mkBlock (name ++ blockSep ++ i) (some config)], s.cfg.length, hi, ha, ?_, ?_, ?_⟩
      · obtain ⟨q0, -⟩ := view_reads hr hc (name ++ blockSep ++ i) []
        simp only [checkNested, hh, hg, hreg, if_true, Option.isSome_some, q0, ha]
      · intro key x
        obtain ⟨-, q1, -⟩ := view_reads hr hc (name ++ blockSep ++ i) key
        rw [q1, show name ++ blockSep ++ i ++ c!":" ++ key = name ++ c!":" ++ i ++ c!":" ++ key from rfl]
        cases getValue s.cfg config (name ++ c!":" ++ i ++ c!":" ++ key) with
        | ok y => simp
        | error e => cases e <;> simp
      · intro b hb; rw [List.getElem?_append_left hb]
    · left
      have hreg : hasImplName s t i = false := by
        rw [hasImplName]
        cases hc : (registeredNames s t).contains i with
        | false => rfl
        | true => exact absurd (List.contains_iff_mem.1 hc) hi
      refine ⟨hi, ?_⟩
      simp only [checkNested, hh, hg, hreg, Option.isSome_some]
      rfl

/-! ### A concrete library -/

/-- A plugin whose members are the entries of its configuration. -/
def putAll (b : Nat) : List (Str × Str) → List Config.Op
  | [] => []
  | e :: es => .setValue b e.1 e.2 [] :: putAll b es

def mapLib : Lib (List (Str × Str)) where
  typeName c := if c = 0 then c!"image_io" else c!"detect_features"
  getCfg s a :=
    match s.objs[a]? with
    | none => (s, .error .ub)
    | some o => ({ s with cfg := (Config.Op.emptyConfig (c!"cfg") :: putAll s.cfg.length o.data).foldl Config.step s.cfg },
        .ok s.cfg.length)
  setCfg s a v :=
    match s.objs[a]?, getValue s.cfg v (c!"size") with
    | some o, .ok x => ({ s with objs := s.objs.set a { o with data := [(c!"size", x)] } }, .ok ())
    | _, .error e => (s, .error e)
    | none, _ => (s, .error .ub)
  checkCfg s _ v := (s, hasValue s.cfg v (c!"size"))

theorem putAll_frame (b : Nat) (es : List (Str × Str)) : ∀ (h : Heap), WF h → IsRoot h b →
    IsRoot ((putAll b es).foldl Config.step h) b ∧
    ∀ r, r ≠ b → ((putAll b es).foldl Config.step h)[r]? = h[r]? := by
  induction es with
  | nil => intro h _ hb; exact ⟨hb, fun _ _ => rfl⟩
  | cons e es ih =>
    intro h w hb
    have w' := wf_prims (step_prims h (.setValue b e.1 e.2 [])) w
    have hb' := isRoot_prims (step_prims h (.setValue b e.1 e.2 [])) hb
    obtain ⟨i1, i2⟩ := ih _ w' hb'
    refine ⟨i1, fun r hr => ?_⟩
    show ((putAll b es).foldl Config.step (Config.step h (.setValue b e.1 e.2 [])))[r]? = _
    rw [i2 r hr]
    obtain ⟨B, eB, pB⟩ := hb
    simp only [Config.step]
    rw [set_view w (.root eB pB) eB]
    split
    · rfl
    · exact set_other hr

theorem mapLib_wb : WellBehaved mapLib := by
  intro s a s' k hr h
  have w := hr.wf
  simp only [mapLib] at h
  cases ho : s.objs[a]? with
  | none => rw [ho] at h; simp at h
  | some o =>
    rw [ho] at h
    simp only [Prod.mk.injEq, Except.ok.injEq] at h
    obtain ⟨rfl, rfl⟩ := h
    have w1 : WF (s.cfg ++ [mkBlock (c!"cfg") none]) := wf_prims (step_prims s.cfg (.emptyConfig (c!"cfg"))) w
    obtain ⟨i1, i2⟩ := putAll_frame s.cfg.length o.data _ w1 ⟨mkBlock (c!"cfg") none, by simp, rfl⟩
    refine ⟨⟨_, rfl⟩, i1, Nat.le_refl _, fun r hr => ?_, rfl, rfl, fun _ _ h => h⟩
    have := i2 r (by omega)
    rw [List.getElem?_append_left hr] at this
    exact this

/-- Two implementations of "image_io" are registered (objects 0 and 1); block 0 is the configuration of
    an algorithm that uses one of them. -/
def nestedSt : St (List (Str × Str)) :=
  { run mapLib [.new ⟨0, c!"ocv", c!"OpenCV", []⟩, .register (some 0), .new ⟨0, c!"vxl", [], []⟩, .register (some 1),
      .new ⟨0, c!"vxl", [], [(c!"size", c!"640"), (c!"mode", c!"rgb")]⟩] with
    cfg := Config.run [.emptyConfig [], .setValue 0 (c!"other") (c!"1") []] }

theorem nestedSt_live : RegistryLive nestedSt := live_of_run mapLib _

theorem nestedSt_get : (getNested mapLib nestedSt (c!"image_io") (c!"reader") 0 (some 2)).2 = .ok () := by
  decide +kernel

/-- The hypotheses of `C46_get_then_set` hold here: object 2 (a configured "vxl") is written to block 0. -/
example : WellBehaved mapLib ∧ Reachable nestedSt.cfg ∧ RegistryLive nestedSt ∧
    nestedSt.objs[2]? = some ⟨0, c!"vxl", [], [(c!"size", c!"640"), (c!"mode", c!"rgb")]⟩ ∧ Trimmed (c!"vxl") ∧
    hasImplName nestedSt (c!"image_io") (c!"vxl") = true ∧
    ∃ s1, getNested mapLib nestedSt (c!"image_io") (c!"reader") 0 (some 2) = (s1, .ok ()) := by
  refine ⟨mapLib_wb, ⟨_, rfl⟩, nestedSt_live, ?_, ?_, ?_, ⟨_, Prod.ext rfl nestedSt_get⟩⟩
  · decide +kernel
  · rw [trimmed_iff_trim]; decide +kernel
  · decide +kernel

/-- And the whole round trip, computed: the new object 3 is a "vxl" whose size is 640. -/
example : ((setNested mapLib (getNested mapLib nestedSt (c!"image_io") (c!"reader") 0 (some 2)).1
      (c!"image_io") (c!"reader") 0 none).1.objs[3]?) = some ⟨0, c!"vxl", [], [(c!"size", c!"640")]⟩ ∧
    (setNested mapLib (getNested mapLib nestedSt (c!"image_io") (c!"reader") 0 (some 2)).1
      (c!"image_io") (c!"reader") 0 none).2.1 = some 3 ∧
    (checkNested mapLib (getNested mapLib nestedSt (c!"image_io") (c!"reader") 0 (some 2)).1
      (c!"image_io") (c!"reader") 0).2 = .ok true ∧
    getDescription (getNested mapLib nestedSt (c!"image_io") (c!"reader") 0 (some 2)).1.cfg 0 (c!"reader:type") =
      .ok (c!"Algorithm to use for 'reader'.\nMust be one of the following options:\n\t- ocv :: OpenCV\n\t- vxl") := by
  refine ⟨?_, ?_, ?_, ?_⟩ <;> decide +kernel

/-- The full statement of C46's last clause, for every type name. -/
def C46_never_null : Prop := ∀ (s : St (List (Str × Str))) (t name : Str) (config : Nat), RegistryLive s →
  Reachable s.cfg → config < s.cfg.length → (checkNested mapLib s t name config).2 ≠ .error .ub

/-- It fails for the empty type name, which `registered_names` takes to mean "all types": with
    `x:type = image_io:vxl` the name passes the test and the look-up of ":image_io:vxl" yields null. -/
theorem C46_never_null_refuted : ¬ C46_never_null := by
  intro h
  refine h { nestedSt with cfg := Config.run [.emptyConfig [], .setValue 0 (c!"x:type") (c!"image_io:vxl") []] }
    [] (c!"x") 0 nestedSt_live ⟨_, rfl⟩ ?_ ?_ <;> decide +kernel

/-- For the same reason `get_nested_algo_configuration` with an empty type name follows a null pointer
    as soon as anything is registered. -/
theorem C46_get_empty_type : (getNested mapLib nestedSt [] (c!"x") 0 none).2 = .error .ub := by decide +kernel

end Vital.Algo
