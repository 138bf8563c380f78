import Verif.Algo.Nested
/-
  Properties of the implementation list in a nested algorithm's description (C88) and of
  `get_impl_configurations` (C89).
-/
namespace Vital.Algo
open Vital Vital.Config

variable {δ : Type}

/-! ### C88 -/

/-- One line of the list of options. -/
def optionLine (i descr : Str) : Str := c!"\n\t- " ++ i ++ (if descr = [] then [] else c!" :: " ++ descr)

theorem comment_exact {s : St δ} {t : Str} {f : Str → Str} : ∀ (rs : List Str) (acc : Str),
    (∀ r ∈ rs, ∃ a o, s.quals.find? (qualified t r) = some a ∧ s.objs[a]? = some o ∧ f r = o.descr) →
    commentLoop s t rs acc = .ok (acc ++ rs.flatMap (fun r => optionLine r (f r)))
  | [], acc, _ => by simp [commentLoop]
  | r :: rs, acc, h => by
    obtain ⟨a, o, h1, h2, h3⟩ := h r (by simp)
    unfold commentLoop
    simp only [h1, h2]
    rw [comment_exact rs _ (fun x hx => h x (by simp [hx]))]
    simp only [List.flatMap_cons, optionLine, h3]
    by_cases hd : o.descr = [] <;> simp [hd]

/-- After every history of registrations: the description that `get_nested_algo_configuration` attaches to
    `name:type` is the fixed heading and then, in order, one line for each registered implementation of
    the type, with the description of the object registered last under that name if it has one. -/
theorem C88_option_list (L : Lib δ) (ops : List (AOp δ)) {t : Str} (ht : t ≠ []) (name : Str) :
    ∃ descr : Str → Str,
      (∀ i ∈ registeredNames (run L ops) t, ∃ a o, LastRegistered L ops (t ++ c!":" ++ i) a ∧
        (run L ops).objs[a]? = some o ∧ descr i = o.descr) ∧
      typeComment (run L ops) t name =
        .ok (c!"Algorithm to use for '" ++ name ++ c!"'.\nMust be one of the following options:" ++
          (registeredNames (run L ops) t).flatMap (fun i => optionLine i (descr i))) := by
  let descr : Str → Str := fun i =>
    match (run L ops).quals.find? (qualified t i) with
    | none => []
    | some a => match (run L ops).objs[a]? with
      | none => []
      | some o => o.descr
  have hd : ∀ i ∈ registeredNames (run L ops) t, ∃ a o, (run L ops).quals.find? (qualified t i) = some a ∧
      (run L ops).objs[a]? = some o ∧ descr i = o.descr := by
    intro i hi
    obtain ⟨a, ha⟩ := Option.isSome_iff_exists.1 ((OMap.mem_keys_iff _ _).1 ((mem_registered ht i).1 hi))
    obtain ⟨o, ho⟩ := live_of_run L ops _ _ ha
    exact ⟨a, o, ha, ho, by simp only [descr, ha, ho]⟩
  refine ⟨descr, fun i hi => ?_, comment_exact _ _ hd⟩
  obtain ⟨a, o, h1, h2, h3⟩ := hd i hi
  exact ⟨a, o, (quals_iff L ops _ a).1 h1, h2, h3⟩

/-! ### C89 -/

/-- `get_configuration()` of an object always succeeds, and the entries of the block depend on the object
    alone. -/
def Shows (L : Lib δ) (cfgOf : Inst δ → Str → Option Str) : Prop :=
  ∀ (s : St δ) (a : Nat) (o : Inst δ), Reachable s.cfg → s.objs[a]? = some o →
    ∃ s' k, L.getCfg s a = (s', .ok k) ∧ ∀ key v, getValue s'.cfg k key = .ok v ↔ cfgOf o key = some v

/-- Entry `fk` with value `v` comes from one of the implementations `is`. -/
def FromImpl (s : St δ) (cfgOf : Inst δ → Str → Option Str) (c : Nat) (is : List Str) (fk v : Str) : Prop :=
  ∃ i ∈ is, ∃ a o key, (s.byCls c).find? i = some a ∧ s.objs[a]? = some o ∧ fk = i ++ c!":" ++ key ∧
    cfgOf o key = some v

theorem get_or {h : Heap} (hr : Reachable h) {b : Nat} (hb : b < h.length) (k : Str) :
    (∃ v, getValue h b k = .ok v ∧ hasValue h b k = .ok true) ∨
    (getValue h b k = .error (.noSuch k) ∧ hasValue h b k = .ok false) := by
  obtain ⟨r, pre, rb, hv, hrb, _⟩ := live_view hr.wf hb
  rw [get_view hr.wf hv hrb, has_view hr.wf hv hrb, OMap.contains]
  cases rb.store.find? (pre ++ k) with
  | none => right; exact ⟨rfl, rfl⟩
  | some v => left; exact ⟨v, rfl, rfl⟩

theorem implLoop_spec {L : Lib δ} (hwb : WellBehaved L) {cfgOf : Inst δ → Str → Option Str} (hsh : Shows L cfgOf)
    (c config : Nat) : ∀ (is : List Str) (s : St δ), Reachable s.cfg → IsRoot s.cfg config →
      (∀ key, isReadOnly s.cfg config key = .ok false) →
      (∀ i ∈ is, ∃ a o, (s.byCls c).find? i = some a ∧ s.objs[a]? = some o) → (∀ i ∈ is, ':' ∉ i) → is.Nodup →
      ∃ s', implCfgLoop L c config is s = (s', .ok ()) ∧ IsRoot s'.cfg config ∧
        ∀ fk v, getValue s'.cfg config fk = .ok v ↔
          (FromImpl s cfgOf c is fk v ∨ ((¬ ∃ v', FromImpl s cfgOf c is fk v') ∧ getValue s.cfg config fk = .ok v))
  | [], s, hr, hroot, _, _, _, _ => by
    refine ⟨s, rfl, hroot, fun fk v => ?_⟩
    simp [FromImpl]
  | i :: is, s, hr, hroot, hro, hreg, hcol, hnd => by
    obtain ⟨a, o, ha, ho⟩ := hreg i (by simp)
    obtain ⟨B, eB, pB⟩ := hroot
    have hcl : config < s.cfg.length := lt_of_some eB
    obtain ⟨f0, -⟩ := view_reads hr hcl i []
    have hr1 : Reachable (s.cfg ++ [mkBlock i (some config)]) := by
      have := hr.step (.subblockView config i)
      simp only [Config.step, f0] at this; exact this
    obtain ⟨s2, k, e2, hshow⟩ := hsh { s with cfg := s.cfg ++ [mkBlock i (some config)] } a o hr1 ho
    obtain ⟨⟨ops, hops⟩, hkroot, hkge, hkeep, hq, hbc, hobj⟩ := hwb _ _ _ _ hr1 e2
    simp only at hops hkge hkeep hbc hobj
    have hr2 : Reachable s2.cfg := by rw [hops]; exact hr1.steps ops
    have eB2 : s2.cfg[config]? = some B := by
      rw [hkeep config (by simp; omega), List.getElem?_append_left hcl]; exact eB
    have hvc : ViewOf s2.cfg config config [] := .root eB2 pB
    have hvv : ViewOf s2.cfg s.cfg.length config ([] ++ (i ++ [':'])) := by
      refine .view (blk := mkBlock i (some config)) ?_ rfl hvc
      rw [hkeep s.cfg.length (by simp)]; simp
    obtain ⟨K, eK, pK⟩ := hkroot
    obtain ⟨ks, g1, -, -, g2⟩ := C10_available_root hr2 ⟨K, eK, pK⟩
    have hne : config ≠ k := by simp only [List.length_append] at hkge; omega
    have hro2 : ∀ key, isReadOnly s2.cfg config key = .ok false := by
      intro key
      have := hro key
      simp only [isReadOnly, eB] at this
      simp only [isReadOnly, eB2]; exact this
    obtain ⟨done, rest, h3, res, m1, m2, m3, m4, m5, m6, m7, m8⟩ :=
      C11_merge hr2 hvv (.root eK pK) hne g1 (fun key hk => (g2 key).1 hk)
    have hrest : rest = [] ∧ res = .ok () := by
      rcases m4 with h | ⟨bad, rest', cur, v, _, h, _⟩
      · exact h
      · rw [hro2] at h; cases h
    obtain ⟨rfl, rfl⟩ := hrest
    rw [List.append_nil] at m1
    rw [m1] at g2 g1
    have hr3 : Reachable h3 := by
      have := hr2.step (.mergeConfig s.cfg.length k)
      simp only [Config.step, m2] at this; exact this
    have p23 : Prims s2.cfg h3 := by
      have := step_prims s2.cfg (.mergeConfig s.cfg.length k)
      simp only [Config.step, m2] at this; exact this
    have hroot3 : IsRoot h3 config := isRoot_prims p23 ⟨B, eB2, pB⟩
    have hro3 : ∀ key, isReadOnly h3 config key = .ok false := fun key => by rw [m8]; exact hro2 key
    obtain ⟨s', e3, i1, i2⟩ := implLoop_spec hwb hsh c config is { s2 with cfg := h3 } hr3 hroot3 hro3
      (by
        intro j hj
        obtain ⟨aj, oj, h1, h2⟩ := hreg j (by simp [hj])
        exact ⟨aj, oj, by simp only [hbc]; exact h1, hobj aj oj h2⟩)
      (fun j hj => hcol j (by simp [hj])) (List.nodup_cons.1 hnd).2
    -- the entries of `config` after merging implementation `i`
    have hval : ∀ fk v, getValue h3 config fk = .ok v ↔
        ((∃ key, fk = i ++ c!":" ++ key ∧ cfgOf o key = some v) ∨
         ((¬ ∃ key v', fk = i ++ c!":" ++ key ∧ cfgOf o key = some v') ∧ getValue s.cfg config fk = .ok v)) := by
      intro fk v
      by_cases hin : ∃ key v', fk = i ++ c!":" ++ key ∧ cfgOf o key = some v'
      · obtain ⟨key, v', rfl, hv'⟩ := hin
        have hk : getValue s2.cfg k key = .ok v' := (hshow key v').2 hv'
        have hmem : key ∈ done := by
          rcases get_or hr2 (lt_of_some eK) key with ⟨x, _, hx⟩ | ⟨hx, _⟩
          · exact (g2 key).2 hx
          · rw [hk] at hx; cases hx
        have hvv3 := hvv.prims p23
        obtain ⟨B3, eB3, pB3⟩ := hroot3
        have e5 := m5 key hmem
        rw [hk, get_view hr3.wf hvv3 eB3] at e5
        have hg : getValue h3 config (i ++ c!":" ++ key) = .ok v' := by
          rw [get_view hr3.wf (.root eB3 pB3) eB3]
          have ek : ([] : Str) ++ (i ++ [':']) ++ key = [] ++ (i ++ c!":" ++ key) := by simp
          rw [ek] at e5
          cases hf : B3.store.find? ([] ++ (i ++ c!":" ++ key)) with
          | none => rw [hf] at e5; simp at e5
          | some y => rw [hf] at e5; exact e5
        rw [hg]
        constructor
        · intro h
          simp only [Except.ok.injEq] at h
          subst h
          exact Or.inl ⟨key, rfl, hv'⟩
        · rintro (⟨key', h1, h2⟩ | ⟨h1, _⟩)
          · have : key = key' := by
              have h1' : i ++ c!":" ++ key = i ++ c!":" ++ key' := h1
              exact List.append_cancel_left h1'
            subst this
            rw [hv'] at h2; rw [Option.some.inj h2]
          · exact absurd ⟨key, v', rfl, hv'⟩ h1
      · have hno : ∀ key ∈ done, ¬ SameEntry s2.cfg s.cfg.length key config fk := by
          rintro key hk ⟨r1, fk', ⟨p1, v1, q1⟩, ⟨p2, v2, q2⟩⟩
          obtain ⟨-, rfl⟩ := v1.unique hvv
          obtain ⟨-, rfl⟩ := v2.unique hvc
          rw [q1] at q2
          apply hin
          rcases get_or hr2 (lt_of_some eK) key with ⟨x, hx, _⟩ | ⟨_, hx⟩
          · exact ⟨key, x, by simpa using q2.symm, (hshow key x).1 hx⟩
          · have := (g2 key).1 hk; rw [this] at hx; cases hx
        rw [(m7 config fk hvc.lt hno).1, get_congr hr.wf hr2.wf (.root eB pB) hvc eB eB2]
        constructor
        · intro h; exact Or.inr ⟨hin, h⟩
        · rintro (⟨key, h1, h2⟩ | ⟨_, h⟩)
          · exact absurd ⟨key, v, h1, h2⟩ hin
          · exact h
    have hfrom : ∀ fk v, FromImpl s cfgOf c is fk v ↔ FromImpl { s2 with cfg := h3 } cfgOf c is fk v := by
      intro fk v
      constructor
      · rintro ⟨j, hj, aj, oj, key, h1, h2, h3', h4⟩
        exact ⟨j, hj, aj, oj, key, by simp only [hbc]; exact h1, hobj aj oj h2, h3', h4⟩
      · rintro ⟨j, hj, aj, oj, key, h1, h2, h3', h4⟩
        obtain ⟨aj', oj', g1, g2⟩ := hreg j (by simp [hj])
        simp only [hbc] at h1
        rw [g1] at h1
        have ea : aj' = aj := Option.some.inj h1
        rw [ea] at g1 g2
        have := hobj aj oj' g2
        rw [show ({ s2 with cfg := h3 } : St δ).objs[aj]? = s2.objs[aj]? from rfl, this] at h2
        have eo : oj' = oj := Option.some.inj h2
        rw [eo] at g2
        exact ⟨j, hj, aj, oj, key, g1, g2, h3', h4⟩
    have hcons : ∀ fk v, FromImpl s cfgOf c (i :: is) fk v ↔
        ((∃ key, fk = i ++ c!":" ++ key ∧ cfgOf o key = some v) ∨ FromImpl s cfgOf c is fk v) := by
      intro fk v
      constructor
      · rintro ⟨j, hj, aj, oj, key, h1, h2, h3', h4⟩
        rcases List.mem_cons.1 hj with rfl | hj
        · rw [ha] at h1; cases h1
          rw [ho] at h2; cases h2
          exact Or.inl ⟨key, h3', h4⟩
        · exact Or.inr ⟨j, hj, aj, oj, key, h1, h2, h3', h4⟩
      · rintro (⟨key, h1, h2⟩ | ⟨j, hj, r⟩)
        · exact ⟨i, by simp, a, o, key, ha, ho, h1, h2⟩
        · exact ⟨j, by simp [hj], r⟩
    refine ⟨s', ?_, i1, fun fk v => ?_⟩
    · simp only [implCfgLoop, f0, ha, e2, m2, e3]
    · rw [i2 fk v]
      simp only [hval, ← hfrom, hcons]
      have excl : ∀ v v', (∃ key, fk = i ++ c!":" ++ key ∧ cfgOf o key = some v) → ¬ FromImpl s cfgOf c is fk v' := by
        rintro v v' ⟨key, rfl, _⟩ ⟨j, hj, aj, oj, key', _, _, h, _⟩
        have h' : i ++ ':' :: key = j ++ ':' :: key' := by simpa using h
        have := (split_colon (hcol i (by simp)) (hcol j (by simp [hj])) h').1
        subst this
        exact (List.nodup_cons.1 hnd).1 hj
      constructor
      · rintro (h | ⟨h1, h2 | ⟨h2, h3⟩⟩)
        · exact Or.inl (Or.inr h)
        · exact Or.inl (Or.inl h2)
        · refine Or.inr ⟨?_, h3⟩
          rintro ⟨v', ⟨key, g1, g2⟩ | g⟩
          · exact h2 ⟨key, v', g1, g2⟩
          · exact h1 ⟨v', g⟩
      · rintro ((h | h) | ⟨h1, h2⟩)
        · refine Or.inr ⟨?_, Or.inl h⟩
          rintro ⟨v', g⟩
          exact excl v v' h g
        · exact Or.inl h
        · refine Or.inr ⟨?_, Or.inr ⟨?_, h2⟩⟩
          · rintro ⟨v', g⟩; exact h1 ⟨v', Or.inr g⟩
          · rintro ⟨key, v', g1, g2⟩; exact h1 ⟨v', Or.inl ⟨key, g1, g2⟩⟩

/-- `get_impl_configurations()` of class `c`, after any history of registrations and with any config
    blocks around (`cfg`): if the implementation names contain no ':' it returns a new root block, and
    the entries of that block are exactly `impl:key = value` for the entries `key = value` of the
    configuration of the object registered last under each implementation name. -/
theorem C89_impl_configs {L : Lib δ} (hwb : WellBehaved L) {cfgOf : Inst δ → Str → Option Str} (hsh : Shows L cfgOf)
    (ops : List (AOp δ)) (cfg : Heap) (hr : Reachable cfg) (c : Nat)
    (hcol : ∀ i ∈ registeredNamesCls (run L ops) c, ':' ∉ i) :
    ∃ s', implConfigs L { run L ops with cfg := cfg } c = (s', .ok cfg.length) ∧ IsRoot s'.cfg cfg.length ∧
      ∀ fk v, getValue s'.cfg cfg.length fk = .ok v ↔
        ∃ i a o key, LastRegisteredCls L ops c i a ∧ (run L ops).objs[a]? = some o ∧
          fk = i ++ c!":" ++ key ∧ cfgOf o key = some v := by
  have hr1 : Reachable (cfg ++ [mkBlock [] none]) := hr.step (.emptyConfig [])
  have hroot : IsRoot (cfg ++ [mkBlock [] none]) cfg.length := ⟨mkBlock [] none, by simp, rfl⟩
  obtain ⟨s', e1, e2, e3⟩ := implLoop_spec hwb hsh c cfg.length (registeredNamesCls (run L ops) c)
    { run L ops with cfg := cfg ++ [mkBlock [] none] } hr1 hroot
    (by intro key; simp [isReadOnly, mkBlock])
    (by
      intro i hi
      obtain ⟨a, ha⟩ := Option.isSome_iff_exists.1 ((OMap.mem_keys_iff _ _).1 hi)
      obtain ⟨o, _, ho, _⟩ := last_live ((byCls_iff L ops c i a).1 ha)
      exact ⟨a, o, ha, ho⟩)
    hcol (OMap.keys_nodup (byCls_sorted L ops c))
  refine ⟨s', ?_, e2, fun fk v => ?_⟩
  · unfold implConfigs
    rw [show registeredNamesCls ({ run L ops with cfg := cfg } : St δ) c = registeredNamesCls (run L ops) c from rfl]
    simp only [e1]
  · rw [e3]
    have h0 : ∀ v, getValue (cfg ++ [mkBlock [] none]) cfg.length fk ≠ .ok v := by
      intro v
      rw [get_view hr1.wf (.root (blk := mkBlock [] none) (by simp) rfl) (rb := mkBlock [] none) (by simp)]
      simp [mkBlock, OMap.find?]
    constructor
    · rintro (⟨i, hi, a, o, key, h1, h2, h3, h4⟩ | ⟨_, h⟩)
      · exact ⟨i, a, o, key, (byCls_iff L ops c i a).1 h1, h2, h3, h4⟩
      · exact absurd h (h0 v)
    · rintro ⟨i, a, o, key, h1, h2, h3, h4⟩
      have h1' := (byCls_iff L ops c i a).2 h1
      exact Or.inl ⟨i, (OMap.mem_keys_iff _ _).2 (by rw [h1']; rfl), a, o, key, h1', h2, h3, h4⟩

/-- The value that the entries of a `mapLib` object give to a key: the last one wins. -/
def entryOf : List (Str × Str) → Str → Option Str
  | [], _ => none
  | e :: es, key =>
    match entryOf es key with
    | some v => some v
    | none => if e.1 = key then some (trim e.2) else none

theorem putAll_values (b : Nat) (es : List (Str × Str)) : ∀ (h : Heap) (B : Block), WF h → h[b]? = some B →
    B.parent = none → B.ro = [] → ∃ B', ((putAll b es).foldl Config.step h)[b]? = some B' ∧ B'.parent = none ∧
      WF ((putAll b es).foldl Config.step h) ∧
      ∀ key, B'.store.find? key = match entryOf es key with | some v => some v | none => B.store.find? key := by
  induction es with
  | nil => intro h B w eB pB rB; exact ⟨B, eB, pB, w, fun _ => rfl⟩
  | cons e es ih =>
    intro h B w eB pB rB
    have hs : Config.step h (.setValue b e.1 e.2 []) = h.set b (B.put e.1 e.2 []) := by
      simp only [Config.step]
      rw [set_view w (.root eB pB) eB]
      simp [rB]
    have w' := wf_prims (step_prims h (.setValue b e.1 e.2 [])) w
    rw [hs] at w'
    obtain ⟨B', i1, i2, i3, i4⟩ := ih (h.set b (B.put e.1 e.2 [])) (B.put e.1 e.2 []) w' (set_same eB) pB rB
    refine ⟨B', ?_, i2, ?_, fun key => ?_⟩
    · show ((putAll b es).foldl Config.step (Config.step h (.setValue b e.1 e.2 [])))[b]? = _
      rw [hs]; exact i1
    · show WF ((putAll b es).foldl Config.step (Config.step h (.setValue b e.1 e.2 [])))
      rw [hs]; exact i3
    · rw [i4, put_find]
      simp only [entryOf]
      cases entryOf es key with
      | some v => rfl
      | none =>
        simp only
        by_cases he : key = e.1
        · rw [if_pos he, if_pos he.symm]
        · rw [if_neg he, if_neg (Ne.symm he)]

theorem mapLib_shows : Shows mapLib (fun o => entryOf o.data) := by
  intro s a o hr ho
  have w1 : WF (s.cfg ++ [mkBlock (c!"cfg") none]) := wf_prims (step_prims s.cfg (.emptyConfig (c!"cfg"))) hr.wf
  obtain ⟨B', i1, i2, i3, i4⟩ := putAll_values s.cfg.length o.data _ (mkBlock (c!"cfg") none) w1 (by simp) rfl rfl
  refine ⟨{ s with cfg := (Config.Op.emptyConfig (c!"cfg") :: putAll s.cfg.length o.data).foldl Config.step s.cfg },
    s.cfg.length, by simp only [mapLib, ho], fun key v => ?_⟩
  have e : (Config.Op.emptyConfig (c!"cfg") :: putAll s.cfg.length o.data).foldl Config.step s.cfg =
      (putAll s.cfg.length o.data).foldl Config.step (s.cfg ++ [mkBlock (c!"cfg") none]) := rfl
  simp only [e]
  rw [get_view i3 (.root i1 i2) i1]
  simp only [List.nil_append, i4]
  cases entryOf o.data key <;> simp [mkBlock, OMap.find?]

/-- The concrete library meets the hypotheses. -/
example : WellBehaved mapLib ∧ Shows mapLib (fun o => entryOf o.data) ∧
    Reachable (Config.run [.emptyConfig [], .setValue 0 (c!"other") (c!"1") []]) ∧
    (∀ i ∈ registeredNamesCls nestedSt 0, ':' ∉ i) ∧
    getValue (implConfigs mapLib { nestedSt with objs := nestedSt.objs.set 0 ⟨0, c!"ocv", [], [(c!"size", c!"7")]⟩ } 0).1.cfg 1 (c!"ocv:size") = .ok (c!"7") := by
  refine ⟨mapLib_wb, mapLib_shows, ⟨_, rfl⟩, ?_, ?_⟩ <;> decide +kernel

end Vital.Algo
