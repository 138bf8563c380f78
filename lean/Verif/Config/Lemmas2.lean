import Verif.Config.Lemmas
/- More helper lemmas: inversion of successful calls, key listings, loops. -/
namespace Vital.Config
open Vital

theorem live_view {h : Heap} (w : WF h) {b : Nat} (hb : b < h.length) :
    ∃ r pre rb, ViewOf h b r pre ∧ h[r]? = some rb ∧ rb.parent = none := by
  obtain ⟨r, pre, v⟩ := viewOf_total w b hb
  obtain ⟨rb, h1, h2⟩ := v.root_of
  exact ⟨r, pre, rb, v, h1, h2⟩

theorem iSet_dead {n : Nat} {h : Heap} {b : Nat} (hb : ¬ b < h.length) (k v d : Str) :
    iSetValueF n h b k v d = (h, .error .ub) := by
  cases n <;> simp only [iSetValueF]
  rw [List.getElem?_eq_none (by omega)]

theorem set_ok {h h' : Heap} (w : WF h) {b : Nat} {k v d : Str}
    (hs : setValue h b k v d = (h', .ok ())) :
    ∃ r pre rb, ViewOf h b r pre ∧ h[r]? = some rb ∧ rb.parent = none ∧
      rb.ro.contains (pre ++ k) = false ∧ h' = h.set r (rb.put (pre ++ k) v d) := by
  by_cases hb : b < h.length
  · obtain ⟨r, pre, rb, v', h1, h2⟩ := live_view w hb
    rw [set_view w v' h1] at hs
    split at hs
    · cases hs
    · rename_i hro
      cases hs
      exact ⟨r, pre, rb, v', h1, h2, by simpa using hro, rfl⟩
  · rw [setValue, iSet_dead hb] at hs; cases hs

theorem unset_ok {h h' : Heap} (w : WF h) {b : Nat} (hb : b < h.length) {k : Str}
    (hs : unsetValue h b k = (h', .ok ())) :
    ∃ r pre rb, ViewOf h b r pre ∧ h[r]? = some rb ∧ rb.parent = none ∧
      rb.ro.contains (pre ++ k) = false ∧ rb.store.contains (pre ++ k) = true ∧
      h' = h.set r (rb.del (pre ++ k)) := by
  obtain ⟨r, pre, rb, v', h1, h2⟩ := live_view w hb
  rw [unset_view w v' h1] at hs
  split at hs
  · cases hs
  · rename_i hro
    split at hs
    · cases hs
    · rename_i hst
      cases hs
      exact ⟨r, pre, rb, v', h1, h2, by simpa using hro, by simpa using hst, rfl⟩

/-! ### available_values -/

theorem avail_fuel {h : Heap} (w : WF h) : ∀ n m b, b < n → b < m →
    availableValuesF n h b = availableValuesF m h b := by
  intro n
  induction n with
  | zero => intro m b hn; omega
  | succ n ih =>
    intro m b hn hm
    cases m with
    | zero => omega
    | succ m =>
      simp only [availableValuesF]
      cases hb : h[b]? with
      | none => rfl
      | some blk =>
        simp only
        cases hp : blk.parent with
        | none => rfl
        | some p =>
          have := (w _ _ hb).parent_lt p hp
          simp only
          rw [ih m p (by omega) (by omega)]

theorem avail_root {h : Heap} {r : Nat} {rb : Block} (hr : h[r]? = some rb)
    (hp : rb.parent = none) : availableValues h r = .ok rb.store.keys := by
  unfold availableValues
  have := lt_of_some hr
  cases hl : h.length with
  | zero => omega
  | succ n => simp only [availableValuesF, hr, hp]

theorem avail_step {h : Heap} (w : WF h) {b p : Nat} {blk : Block} (hb : h[b]? = some blk)
    (hp : blk.parent = some p) : availableValues h b =
      match availableValues h p with
      | .error e => .error e
      | .ok ks => .ok ((ks.filter (fun k => !(doesNotBeginWith k blk.name))).map
                 (fun k => stripBlockName blk.name k)) := by
  unfold availableValues
  have hlt := lt_of_some hb
  have := (w _ _ hb).parent_lt p hp
  cases hl : h.length with
  | zero => omega
  | succ n =>
    rw [avail_fuel w (n + 1) n p (by omega) (by omega)]
    simp only [availableValuesF, hb, hp]
    cases availableValuesF n h p <;> rfl

theorem avail_total {h : Heap} (w : WF h) {b r : Nat} {pre : Str} (v : ViewOf h b r pre) :
    ∃ ks, availableValues h b = .ok ks := by
  induction v with
  | root h1 h2 => exact ⟨_, avail_root h1 h2⟩
  | view h1 h2 _ ih =>
    obtain ⟨ks, e⟩ := ih
    rw [avail_step w h1 h2, e]; exact ⟨_, rfl⟩

theorem startsWith_append (a b : Str) : startsWith (a ++ b) a = true :=
  (startsWith_iff _ _).2 ⟨b, rfl⟩

theorem strip_prefixed (n k : Str) : stripBlockName n (n ++ (':' :: k)) = k := by
  have e : n ++ (':' :: k) = (n ++ blockSep) ++ k := by simp [blockSep]
  unfold stripBlockName
  rw [e, startsWith_append]
  simp only [Bool.not_true, Bool.false_eq_true, ↓reduceIte]
  have : n.length + blockSep.length = (n ++ blockSep).length := by simp
  rw [this, List.drop_left]

theorem keep_prefixed (n k : Str) : doesNotBeginWith (n ++ (':' :: k)) n = false := by
  have e : n ++ (':' :: k) = (n ++ blockSep) ++ k := by simp [blockSep]
  unfold doesNotBeginWith
  rw [e, startsWith_append]; rfl

theorem startsWith_sep (q n : Str) : startsWith q (n ++ blockSep) = true ↔ ∃ k, q = n ++ (':' :: k) := by
  rw [startsWith_iff]; simp [blockSep]

/-- Which keys `q` survive the filter for block `n` and become `k`. -/
theorem keep_strip_iff (n k q : Str) :
    (doesNotBeginWith q n = false ∧ stripBlockName n q = k) ↔
      (q = n ++ (':' :: k) ∨
       (q = k ∧ (∃ t, k = globalValue ++ (':' :: t)) ∧ ¬ ∃ t, k = n ++ (':' :: t))) := by
  by_cases hs : startsWith q (n ++ blockSep) = true
  · obtain ⟨t, rfl⟩ := (startsWith_sep q n).1 hs
    rw [strip_prefixed]
    simp only [keep_prefixed, true_and, List.append_cancel_left_eq, List.cons.injEq]
    constructor
    · intro h; exact Or.inl h
    · rintro (h | ⟨h1, _, h2⟩)
      · exact h
      · exact absurd ⟨t, h1.symm⟩ h2
  · have hns : ¬ ∃ t, q = n ++ (':' :: t) := fun h => hs ((startsWith_sep q n).2 h)
    have hsf : startsWith q (n ++ blockSep) = false := by simpa using hs
    have hst : stripBlockName n q = q := by simp [stripBlockName, hsf]
    rw [hst]
    constructor
    · rintro ⟨h1, rfl⟩
      right
      refine ⟨rfl, ?_, hns⟩
      simp only [doesNotBeginWith, hsf, Bool.not_false, Bool.true_and, Bool.not_eq_false'] at h1
      exact (startsWith_sep _ _).1 h1
    · rintro (h | ⟨rfl, h1, _⟩)
      · exact absurd ⟨k, h⟩ hns
      · refine ⟨?_, rfl⟩
        simp only [doesNotBeginWith, hsf, Bool.not_false, Bool.true_and, Bool.not_eq_false']
        exact (startsWith_sep _ _).2 h1

theorem mem_avail_view {h : Heap} (w : WF h) {b p : Nat} {blk : Block} (hb : h[b]? = some blk)
    (hp : blk.parent = some p) {ks : List Str} (he : availableValues h p = .ok ks) (k : Str) :
    ∃ ks', availableValues h b = .ok ks' ∧ (k ∈ ks' ↔
      (blk.name ++ (':' :: k) ∈ ks ∨
       (k ∈ ks ∧ (∃ t, k = globalValue ++ (':' :: t)) ∧ ¬ ∃ t, k = blk.name ++ (':' :: t)))) := by
  rw [avail_step w hb hp, he]
  refine ⟨_, rfl, ?_⟩
  simp only [List.mem_map, List.mem_filter, Bool.not_eq_true']
  constructor
  · rintro ⟨q, ⟨hq, h1⟩, h2⟩
    rcases (keep_strip_iff _ _ _).1 ⟨h1, h2⟩ with rfl | ⟨rfl, h3, h4⟩
    · exact Or.inl hq
    · exact Or.inr ⟨hq, h3, h4⟩
  · rintro (hq | ⟨hq, h3, h4⟩)
    · exact ⟨_, ⟨hq, keep_prefixed _ _⟩, strip_prefixed _ _⟩
    · obtain ⟨e1, e2⟩ := (keep_strip_iff blk.name k k).2 (Or.inr ⟨rfl, h3, h4⟩)
      exact ⟨k, ⟨hq, e1⟩, e2⟩

theorem has_mem_avail {h : Heap} (w : WF h) {b r : Nat} {pre : Str} (v : ViewOf h b r pre)
    {rb : Block} (hr : h[r]? = some rb) :
    ∀ k ks, rb.store.contains (pre ++ k) = true → availableValues h b = .ok ks → k ∈ ks := by
  induction v with
  | root h1 h2 =>
    intro k ks hk he
    rw [h1] at hr; cases hr
    rw [avail_root h1 h2] at he; cases he
    exact (OMap.contains_iff _ _).1 hk
  | view h1 h2 v ih =>
    intro k ks hk he
    obtain ⟨ks0, e0⟩ := avail_total w v
    obtain ⟨ks', e1, e2⟩ := mem_avail_view w h1 h2 e0 k
    rw [he] at e1; cases e1
    rw [e2]
    left
    apply ih hr _ _ _ e0
    simpa using hk

/-! ### Only the target root changes -/

theorem iSet_frame {n : Nat} {h : Heap} {r : Nat} (_ : IsRoot h r) :
    ∀ b k v d, (∀ pre, ¬ ViewOf h b r pre) → (iSetValueF n h b k v d).1[r]? = h[r]? := by
  induction n with
  | zero => intros; rfl
  | succ n ih =>
    intro b k v d hn
    unfold iSetValueF
    split
    · rfl
    · rename_i blk hb
      split
      · rename_i p hp
        exact ih _ _ _ _ (fun pre hv => hn _ (.view hb hp hv))
      · rename_i hp
        split
        · rfl
        · apply set_other
          rintro rfl
          exact hn _ (.root hb hp)

theorem unset_frame {n : Nat} {h : Heap} {r : Nat} (_ : IsRoot h r) :
    ∀ b k, (∀ pre, ¬ ViewOf h b r pre) → (unsetValueF n h b k).1[r]? = h[r]? := by
  induction n with
  | zero => intros; rfl
  | succ n ih =>
    intro b k hn
    unfold unsetValueF
    split
    · rfl
    · rename_i blk hb
      split
      · rename_i p hp
        exact ih _ _ (fun pre hv => hn _ (.view hb hp hv))
      · rename_i hp
        have hne : r ≠ b := by rintro rfl; exact hn _ (.root hb hp)
        split
        · rfl
        · split
          · rfl
          · split
            · exact set_other hne
            · exact set_other hne

theorem noView_prims {h h' : Heap} (w : WF h) (p : Prims h h') {b r : Nat} (hb : b < h.length)
    (hn : ∀ pre, ¬ ViewOf h b r pre) : ∀ pre, ¬ ViewOf h' b r pre := by
  intro pre hv
  obtain ⟨r0, pre0, v0⟩ := viewOf_total w b hb
  have := (v0.prims p).unique hv
  exact hn pre0 (this.1 ▸ v0)

theorem isRoot_prims {h h' : Heap} (p : Prims h h') {r : Nat} (hr : IsRoot h r) : IsRoot h' r := by
  obtain ⟨blk, h1, h2⟩ := hr
  obtain ⟨b', e1, e2, _⟩ := same_prims p _ _ h1
  exact ⟨b', e1, by rw [e2, h2]⟩

theorem lt_prims {h h' : Heap} (p : Prims h h') {b : Nat} (hb : b < h.length) : b < h'.length := by
  obtain ⟨b', e1, _⟩ := same_prims p _ _ (List.getElem?_eq_getElem hb)
  exact lt_of_some e1

theorem mergeLoop_frame {r : Nat} {b c : Nat} (keys : List Str) :
    ∀ (h : Heap), WF h → IsRoot h r → b < h.length → (∀ pre, ¬ ViewOf h b r pre) →
      (mergeLoop b c keys h).1[r]? = h[r]? := by
  induction keys with
  | nil => intros; rfl
  | cons k keys ih =>
    intro h w hr hb hn
    unfold mergeLoop
    split
    · rfl
    · split
      · rfl
      · rename_i _ v _ _ d _
        have hp := setValueF_prims h.length h b k v d
        have hf := iSet_frame (n := h.length) hr b k v d hn
        split <;> rename_i heq <;> simp only [setValue] at heq <;> rw [heq] at hp hf
        · exact hf
        · rw [ih _ (wf_prims hp w) (isRoot_prims hp hr) (lt_prims hp hb) (noView_prims w hp hb hn)]
          exact hf

theorem mergeLoop_dead {b c : Nat} (keys : List Str) :
    ∀ (h : Heap), ¬ b < h.length → (mergeLoop b c keys h).1 = h := by
  induction keys with
  | nil => intros; rfl
  | cons k keys ih =>
    intro h hb
    unfold mergeLoop
    split
    · rfl
    · split
      · rfl
      · rename_i _ v _ _ d _
        rw [setValue, iSet_dead hb]

theorem subLoop_frame {r : Nat} {b c : Nat} {nm : Str} (keys : List Str) :
    ∀ (h : Heap), WF h → IsRoot h r → c < h.length → (∀ pre, ¬ ViewOf h c r pre) →
      (subblockLoop b c nm keys h).1[r]? = h[r]? := by
  induction keys with
  | nil => intros; rfl
  | cons k keys ih =>
    intro h w hr hb hn
    unfold subblockLoop
    split
    · exact ih h w hr hb hn
    split
    · rfl
    · split
      · rfl
      · rename_i _ v _ _ d _
        have hp := setValueF_prims h.length h c (stripBlockName nm k) v d
        have hf := iSet_frame (n := h.length) hr c (stripBlockName nm k) v d hn
        split <;> rename_i heq <;> simp only [setValue] at heq <;> rw [heq] at hp hf
        · exact hf
        · rw [ih _ (wf_prims hp w) (isRoot_prims hp hr) (lt_prims hp hb) (noView_prims w hp hb hn)]
          exact hf

/-- The handle whose object a call is made on and may change. -/
def Op.target : Op → Option Nat
  | .emptyConfig _ => none
  | .subblock _ _ => none
  | .subblockView _ _ => none
  | .setValue b _ _ _ => some b
  | .unsetValue b _ => some b
  | .markReadOnly b _ => some b
  | .mergeConfig b _ => some b
  | .setLocation b _ _ => some b

theorem append_old {h t : Heap} {r : Nat} (hr : IsRoot h r) : (h ++ t)[r]? = h[r]? := by
  obtain ⟨blk, h1, _⟩ := hr
  exact List.getElem?_append_left (lt_of_some h1)

theorem step_frame {h : Heap} (w : WF h) {r : Nat} (hr : IsRoot h r) (op : Op)
    (hn : ∀ b pre, op.target = some b → ¬ ViewOf h b r pre) : (step h op)[r]? = h[r]? := by
  cases op <;> simp only [step]
  case emptyConfig n => exact append_old hr
  case subblock b k =>
    unfold subblock
    split
    · rfl
    · rename_i keys _
      have hp : Prims h (h ++ [mkBlock k none]) := .one (.new (by simp))
      have hf := subLoop_frame (r := r) (b := b) (c := h.length) (nm := k) keys (h ++ [mkBlock k none])
        (wf_prims hp w) (isRoot_prims hp hr) (by simp) (by
          intro pre hv
          obtain ⟨blk, h1, h2⟩ := hr
          have hl := lt_of_some h1
          have hroot : ViewOf (h ++ [mkBlock k none]) h.length h.length [] :=
            .root (blk := mkBlock k none) (by simp) rfl
          have := hroot.unique hv
          omega)
      split <;> rename_i heq
      · rfl
      · rw [heq] at hf; rw [hf]; exact append_old hr
  case subblockView b k =>
    unfold subblockView
    split
    · rfl
    · exact append_old hr
  case setValue b k v d => exact iSet_frame hr b k v d (fun pre => hn b pre rfl)
  case unsetValue b k => exact unset_frame hr b k (fun pre => hn b pre rfl)
  case markReadOnly b k =>
    unfold markReadOnly
    split
    · rfl
    · rename_i hb
      apply set_other
      rintro rfl
      obtain ⟨blk, h1, h2⟩ := hr
      exact hn r [] rfl (.root h1 h2)
  case mergeConfig b c =>
    unfold mergeConfig
    split
    · rfl
    · by_cases hb : b < h.length
      · exact mergeLoop_frame _ h w hr hb (fun pre => hn b pre rfl)
      · rw [mergeLoop_dead _ h hb]
  case setLocation b k l =>
    unfold setLocation
    split
    · rfl
    · rename_i hb
      apply set_other
      rintro rfl
      obtain ⟨blk, h1, h2⟩ := hr
      exact hn r [] rfl (.root h1 h2)

/-! ### Read-only entries -/

/-- Entry `fk` of root `r` is protected and has value `v?` and description `d?`. -/
def Protected (r : Nat) (fk : Str) (v? d? : Option Str) (h : Heap) : Prop :=
  ∃ blk, h[r]? = some blk ∧ blk.parent = none ∧ blk.ro.contains fk = true ∧
    blk.store.find? fk = v? ∧ blk.descr.find? fk = d?

theorem protected_prim {r : Nat} {fk : Str} {v? d? : Option Str} {h h' : Heap} (p : Prim h h')
    (hp : Protected r fk v? d? h) : Protected r fk v? d? h' := by
  obtain ⟨blk, h1, h2, h3, h4, h5⟩ := hp
  have key : ∀ {b : Nat} {x blk0 : Block}, h[b]? = some blk0 →
      (b = r → x.parent = none ∧ x.ro.contains fk = true ∧ x.store.find? fk = v? ∧ x.descr.find? fk = d?) →
      Protected r fk v? d? (h.set b x) := by
    intro b x blk0 hb hx
    by_cases e : b = r
    · subst e; exact ⟨x, set_same hb, hx rfl⟩
    · exact ⟨blk, by rw [set_other (Ne.symm e)]; exact h1, h2, h3, h4, h5⟩
  cases p with
  | new => exact ⟨blk, by rw [List.getElem?_append_left (lt_of_some h1)]; exact h1, h2, h3, h4, h5⟩
  | put hb hpar hro =>
    apply key hb
    rintro rfl
    rw [h1] at hb; cases hb
    refine ⟨h2, h3, ?_, ?_⟩
    · rw [put_find, if_neg, h4]; rintro rfl; rw [h3] at hro; cases hro
    · rw [put_descr, if_neg, h5]; rintro rfl; rw [h3] at hro; cases hro
  | del hb hpar hro =>
    apply key hb
    rintro rfl
    rw [h1] at hb; cases hb
    refine ⟨h2, h3, ?_, ?_⟩
    · rw [del_find, if_neg, h4]; rintro rfl; rw [h3] at hro; cases hro
    · rw [del_descr, if_neg, h5]; rintro rfl; rw [h3] at hro; cases hro
  | delUb hb hpar hro _ _ =>
    apply key hb
    rintro rfl
    rw [h1] at hb; cases hb
    refine ⟨h2, h3, ?_, h5⟩
    simp only; rw [OMap.find?_erase, if_neg, h4]; rintro rfl; rw [h3] at hro; cases hro
  | mark hb =>
    apply key hb
    rintro rfl
    rw [h1] at hb; cases hb
    refine ⟨h2, ?_, h4, h5⟩
    simp only
    split
    · exact h3
    · simp only [List.contains_cons, h3, Bool.or_true]
  | loc hb =>
    apply key hb
    rintro rfl
    rw [h1] at hb; cases hb
    exact ⟨h2, h3, h4, h5⟩

theorem protected_prims {r : Nat} {fk : Str} {v? d? : Option Str} {h h' : Heap} (p : Prims h h')
    (hp : Protected r fk v? d? h) : Protected r fk v? d? h' := by
  induction p with
  | refl => exact hp
  | tail _ q ih => exact protected_prim q ih

/-! ### The merge loop -/

theorem get_congr {h h' : Heap} (w : WF h) (w' : WF h') {b r : Nat} {pre : Str}
    (v : ViewOf h b r pre) (v' : ViewOf h' b r pre) {rb : Block}
    (e : h[r]? = some rb) (e' : h'[r]? = some rb) (k : Str) : getValue h' b k = getValue h b k := by
  rw [get_view w v e, get_view w' v' e']

theorem mergeLoop_spec {b c rb rc : Nat} {pb pc : Str} (hne : rb ≠ rc) (keys : List Str) :
    ∀ (h : Heap) (B C : Block), WF h → ViewOf h b rb pb → ViewOf h c rc pc → h[rb]? = some B →
      h[rc]? = some C → B.parent = none → (∀ k ∈ keys, C.store.contains (pc ++ k) = true) →
      ∃ done rest h' B' res, keys = done ++ rest ∧ mergeLoop b c keys h = (h', res) ∧
        WF h' ∧ Prims h h' ∧ h'[rb]? = some B' ∧ (∀ i, i ≠ rb → h'[i]? = h[i]?) ∧
        B'.ro = B.ro ∧ B'.parent = none ∧ B'.defs = B.defs ∧ B'.name = B.name ∧
        (∀ k ∈ done, B.ro.contains (pb ++ k) = false) ∧
        (∀ fk, B'.store.find? fk =
          match done.find? (fun k => decide (pb ++ k = fk)) with
          | some k => C.store.find? (pc ++ k)
          | none => B.store.find? fk) ∧
        (∀ fk, B'.descr.find? fk =
          match done.find? (fun k => decide (pb ++ k = fk)) with
          | some k => if C.descr.find? (pc ++ k) = some [] then some ((B.descr.find? fk).getD [])
                      else C.descr.find? (pc ++ k)
          | none => B.descr.find? fk) ∧
        ((rest = [] ∧ res = .ok ()) ∨
         (∃ bad rest' cur v, rest = bad :: rest' ∧ B.ro.contains (pb ++ bad) = true ∧
            C.store.find? (pc ++ bad) = some v ∧
            cur = currentValue B' (pb ++ bad) ∧ res = .error (.setRO (pb ++ bad) cur v))) := by
  induction keys with
  | nil =>
    intro h B C w vb vc eB eC hp _
    exact ⟨[], [], h, B, .ok (), rfl, rfl, w, .refl, eB, fun _ _ => rfl, rfl, hp, rfl, rfl, by simp,
      by simp, by simp, Or.inl ⟨rfl, rfl⟩⟩
  | cons k keys ih =>
    intro h B C w vb vc eB eC hp hk
    have hck := hk k (by simp)
    obtain ⟨v, hv⟩ : ∃ v, C.store.find? (pc ++ k) = some v := Option.isSome_iff_exists.1 hck
    have hdk : C.descr.contains (pc ++ k) = true := by rw [← (w _ _ eC).same]; exact hck
    obtain ⟨d, hd⟩ : ∃ d, C.descr.find? (pc ++ k) = some d := Option.isSome_iff_exists.1 hdk
    unfold mergeLoop
    rw [get_view w vc eC, hv]
    simp only
    rw [desc_view w vc eC, hd]
    simp only
    rw [set_view w vb eB]
    by_cases hro : B.ro.contains (pb ++ k) = true
    · rw [if_pos hro]
      exact ⟨[], k :: keys, h, B, _, rfl, rfl, w, .refl, eB, fun _ _ => rfl, rfl, hp, rfl, rfl, by simp,
        by simp, by simp, Or.inr ⟨k, keys, _, v, rfl, hro, hv, rfl, rfl⟩⟩
    · have hro' : B.ro.contains (pb ++ k) = false := by simpa using hro
      rw [if_neg hro]
      simp only
      have pr : Prim h (h.set rb (B.put (pb ++ k) v d)) := .put eB hp hro'
      have w1 := wf_prim pr w
      have vb1 := vb.prims (.one pr)
      have vc1 := vc.prims (.one pr)
      have eB1 : (h.set rb (B.put (pb ++ k) v d))[rb]? = some (B.put (pb ++ k) v d) := set_same eB
      have eC1 : (h.set rb (B.put (pb ++ k) v d))[rc]? = some C := by
        rw [set_other (Ne.symm hne)]; exact eC
      obtain ⟨done, rest, h', B', res, e1, e2, e3, e4, e5, e6, e7, e7', e8, e8', e9, e10, e11, e12⟩ :=
        ih _ _ C w1 vb1 vc1 eB1 eC1 hp (fun q hq => hk q (by simp [hq]))
      have htrim : trim v = v := (w _ _ eC).trimmed _ _ hv
      refine ⟨k :: done, rest, h', B', res, by rw [e1]; rfl, e2, e3, (Prims.one pr).trans e4, e5, ?_,
        by rw [e7]; rfl, e7', by rw [e8]; rfl, by rw [e8']; rfl, ?_, ?_, ?_, ?_⟩
      · intro i hi; rw [e6 i hi, set_other hi]
      · intro q hq
        rcases List.mem_cons.1 hq with rfl | hq
        · exact hro'
        · exact e9 q hq
      · intro fk
        rw [e10]
        by_cases hfk : pb ++ k = fk
        · rw [List.find?_cons_of_pos (by simpa using hfk)]
          simp only
          cases hf : done.find? (fun k => decide (pb ++ k = fk)) with
          | none =>
            simp only
            rw [put_find, if_pos hfk.symm, htrim, hv]
          | some k' =>
            simp only
            have := List.find?_some hf
            have : k' = k := by
              have h2 : pb ++ k' = pb ++ k := by rw [hfk]; simpa using this
              exact List.append_cancel_left h2
            rw [this]
        · rw [List.find?_cons_of_neg (by simpa using hfk)]
          cases hf : done.find? (fun k => decide (pb ++ k = fk)) with
          | none => simp only; rw [put_find, if_neg (Ne.symm hfk)]
          | some k' => rfl
      · intro fk
        rw [e11]
        by_cases hfk : pb ++ k = fk
        · rw [List.find?_cons_of_pos (by simpa using hfk)]
          simp only
          have hput : (B.put (pb ++ k) v d).descr.find? fk =
              if d = [] then some ((B.descr.find? fk).getD []) else some d := by
            rw [put_descr, if_pos hfk.symm, hfk]
          cases hf : done.find? (fun k => decide (pb ++ k = fk)) with
          | none =>
            simp only
            rw [hput, hd]
            by_cases hd0 : d = [] <;> simp [hd0]
          | some k' =>
            have := List.find?_some hf
            have : k' = k := by
              have h2 : pb ++ k' = pb ++ k := by rw [hfk]; simpa using this
              exact List.append_cancel_left h2
            subst this
            simp only
            rw [hput, hd]
            by_cases hd0 : d = [] <;> simp [hd0]
        · rw [List.find?_cons_of_neg (by simpa using hfk)]
          cases hf : done.find? (fun k => decide (pb ++ k = fk)) with
          | none => simp only; rw [put_descr, if_neg (Ne.symm hfk)]
          | some k' =>
            simp only
            rw [put_descr, if_neg (Ne.symm hfk)]
      · rcases e12 with e12 | ⟨bad, rest', cur, v', f1, f2, f3, f4, f5⟩
        · exact Or.inl e12
        · refine Or.inr ⟨bad, rest', cur, v', f1, f2, f3, f4, f5⟩

/-! ### The subblock loop -/

/-- Description that results from storing descriptions `ds` in turn. -/
def descrFold (acc : Option Str) (ds : List Str) : Option Str :=
  ds.foldl (fun a d => if d = [] then some (a.getD []) else some d) acc

theorem subLoop_spec {b s : Nat} {nm : Str} (hne : s ≠ b) (keys : List Str) :
    ∀ (h : Heap) (B S : Block), WF h → h[b]? = some B → B.parent = none → h[s]? = some S →
      S.parent = none → S.ro = [] → (∀ k ∈ keys, B.store.contains k = true) →
      ∃ h' S', subblockLoop b s nm keys h = (h', .ok ()) ∧ WF h' ∧ Prims h h' ∧ h'[s]? = some S' ∧
        S'.parent = none ∧ S'.ro = [] ∧ S'.name = S.name ∧ S'.defs = S.defs ∧ (∀ i, i ≠ s → h'[i]? = h[i]?) ∧
        (∀ k, S'.store.find? k =
          (match (keys.filter (fun q => !doesNotBeginWith q nm && decide (stripBlockName nm q = k))).getLast? with
           | some q => B.store.find? q
           | none => S.store.find? k)) ∧
        (∀ k, S'.descr.find? k = descrFold (S.descr.find? k)
          ((keys.filter (fun q => !doesNotBeginWith q nm && decide (stripBlockName nm q = k))).map
            (fun q => (B.descr.find? q).getD []))) := by
  induction keys with
  | nil =>
    intro h B S w eB pB eS pS roS hk
    exact ⟨h, S, rfl, w, .refl, eS, pS, roS, rfl, rfl, fun _ _ => rfl, fun _ => rfl, fun _ => rfl⟩
  | cons k keys ih =>
    intro h B S w eB pB eS pS roS hk
    have hk' : ∀ q ∈ keys, B.store.contains q = true := fun q hq => hk q (by simp [hq])
    unfold subblockLoop
    by_cases hd : doesNotBeginWith k nm = true
    · rw [if_pos hd]
      obtain ⟨h', S', r⟩ := ih h B S w eB pB eS pS roS hk'
      refine ⟨h', S', ?_⟩
      simp only [List.filter_cons, hd, Bool.not_true, Bool.false_and, Bool.false_eq_true, ↓reduceIte]
      exact r
    · have hd' : doesNotBeginWith k nm = false := by simpa using hd
      rw [if_neg hd]
      have hck := hk k (by simp)
      obtain ⟨v, hv⟩ : ∃ v, B.store.find? k = some v := Option.isSome_iff_exists.1 hck
      have hdk : B.descr.contains k = true := by rw [← (w _ _ eB).same]; exact hck
      obtain ⟨d, hdd⟩ : ∃ d, B.descr.find? k = some d := Option.isSome_iff_exists.1 hdk
      rw [iGet_view w (.root eB pB) eB, desc_view w (.root eB pB) eB]
      simp only [List.nil_append, hv, hdd, Option.getD_some]
      rw [set_view w (.root eS pS) eS]
      simp only [roS, List.contains_nil, Bool.false_eq_true, ↓reduceIte, List.nil_append]
      have pr : Prim h (h.set s (S.put (stripBlockName nm k) v d)) := .put eS pS (by rw [roS]; rfl)
      have htrim : trim v = v := (w _ _ eB).trimmed _ _ hv
      obtain ⟨h', S', f1, f2, f3, f4, f5, f6, f7, f8, f9, f10, f11⟩ :=
        ih (h.set s (S.put (stripBlockName nm k) v d)) B (S.put (stripBlockName nm k) v d) (wf_prim pr w)
          (by rw [set_other (Ne.symm hne)]; exact eB) pB (set_same eS) pS roS hk'
      refine ⟨h', S', f1, f2, (Prims.one pr).trans f3, f4, f5, f6, by rw [f7]; rfl, by rw [f8]; rfl, ?_, ?_, ?_⟩
      · intro i hi; rw [f9 i hi, set_other hi]
      · intro q
        rw [f10]
        simp only [List.filter_cons, hd', Bool.not_false, Bool.true_and]
        by_cases hq : stripBlockName nm k = q
        · simp only [hq, decide_true, ↓reduceIte]
          rw [List.getLast?_cons]
          cases hl : (keys.filter (fun q' => !doesNotBeginWith q' nm && decide (stripBlockName nm q' = q))).getLast? with
          | none =>
            simp only [Option.getD_none]
            rw [put_find, if_pos rfl, htrim, hv]
          | some q' => simp only [Option.getD_some]
        · simp only [hq, decide_false, Bool.false_eq_true, ↓reduceIte]
          rw [put_find, if_neg (Ne.symm hq)]
      · intro q
        rw [f11]
        simp only [List.filter_cons, hd', Bool.not_false, Bool.true_and]
        rw [put_descr]
        by_cases hq : stripBlockName nm k = q
        · subst hq
          simp only [decide_true, ↓reduceIte, List.map_cons, hdd, Option.getD_some]
          simp only [descrFold, List.foldl_cons]
        · simp only [hq, decide_false, Bool.false_eq_true, ↓reduceIte]
          rw [if_neg (Ne.symm hq)]

end Vital.Config
