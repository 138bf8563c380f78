import Verif.Config.Spec
/- Helper lemmas for the config-block properties. -/
namespace Vital.Config
open Vital

/-! ### Primitive heap updates -/

/-- What a successful `i_set_value` does to a root block. -/
def Block.put (blk : Block) (k v d : Str) : Block :=
  { blk with
    store := blk.store.insert k (trim v)
    descr := if !blk.descr.contains k || decide (0 < d.length) then blk.descr.insert k d else blk.descr }

/-- What a successful `unset_value` does to a root block. -/
def Block.del (blk : Block) (k : Str) : Block :=
  { blk with store := blk.store.erase k, descr := blk.descr.erase k, defs := blk.defs.erase k }

inductive Prim : Heap → Heap → Prop where
  | new {h name p} : (∀ q, p = some q → q < h.length) → Prim h (h ++ [mkBlock name p])
  | put {h r blk k v d} : h[r]? = some blk → blk.parent = none → blk.ro.contains k = false →
      Prim h (h.set r (blk.put k v d))
  | del {h r blk k} : h[r]? = some blk → blk.parent = none → blk.ro.contains k = false →
      Prim h (h.set r (blk.del k))
  | delUb {h r blk k} : h[r]? = some blk → blk.parent = none → blk.ro.contains k = false →
      blk.store.contains k = true → blk.descr.contains k = false →
      Prim h (h.set r { blk with store := blk.store.erase k })
  | mark {h b blk k} : h[b]? = some blk →
      Prim h (h.set b { blk with ro := if blk.ro.contains k then blk.ro else k :: blk.ro })
  | loc {h b blk k l} : h[b]? = some blk → Prim h (h.set b { blk with defs := blk.defs.insert k l })

inductive Prims : Heap → Heap → Prop where
  | refl {h} : Prims h h
  | tail {h1 h2 h3} : Prims h1 h2 → Prim h2 h3 → Prims h1 h3

theorem Prims.one {h h'} (p : Prim h h') : Prims h h' := .tail .refl p
theorem Prims.trans {a b c} (h1 : Prims a b) (h2 : Prims b c) : Prims a c := by
  induction h2 with
  | refl => exact h1
  | tail _ p ih => exact .tail ih p

theorem setValueF_prims (n : Nat) (h : Heap) (b : Nat) (k v d : Str) :
    Prims h (iSetValueF n h b k v d).1 := by
  induction n generalizing b k with
  | zero => exact .refl
  | succ n ih =>
    unfold iSetValueF
    split
    · exact .refl
    · rename_i blk hb
      split
      · exact ih _ _
      · rename_i hp
        split
        · exact .refl
        · rename_i hro
          exact .one (.put hb hp (by simpa using hro))

theorem unsetValueF_prims (n : Nat) (h : Heap) (b : Nat) (k : Str) :
    Prims h (unsetValueF n h b k).1 := by
  induction n generalizing b k with
  | zero => exact .refl
  | succ n ih =>
    unfold unsetValueF
    split
    · exact .refl
    · rename_i blk hb
      split
      · exact ih _ _
      · rename_i hp
        split
        · exact .refl
        · rename_i hro
          split
          · exact .refl
          · rename_i hs
            split
            · rename_i hd
              exact .one (.delUb hb hp (by simpa using hro) (by simpa using hs) (by simpa using hd))
            · exact .one (.del hb hp (by simpa using hro))

theorem mergeLoop_prims (b c : Nat) (keys : List Str) (h : Heap) :
    Prims h (mergeLoop b c keys h).1 := by
  induction keys generalizing h with
  | nil => exact .refl
  | cons k keys ih =>
    unfold mergeLoop
    split
    · exact .refl
    · split
      · exact .refl
      · rename_i _ v _ _ d _
        have := setValueF_prims h.length h b k v d
        split <;> rename_i heq <;> simp only [setValue] at heq <;> rw [heq] at this
        · exact this
        · exact this.trans (ih _)

theorem subblockLoop_prims (b c : Nat) (n : Str) (keys : List Str) (h : Heap) :
    Prims h (subblockLoop b c n keys h).1 := by
  induction keys generalizing h with
  | nil => exact .refl
  | cons k keys ih =>
    unfold subblockLoop
    split
    · exact ih _
    split
    · exact .refl
    · split
      · exact .refl
      · rename_i _ v _ _ d _
        have := setValueF_prims h.length h c (stripBlockName n k) v d
        split <;> rename_i heq <;> simp only [setValue] at heq <;> rw [heq] at this
        · exact this
        · exact this.trans (ih _)

theorem subblock_prims (h : Heap) (b : Nat) (n : Str) : Prims h (subblock h b n).1 := by
  unfold subblock
  split
  · exact .refl
  · rename_i keys _
    have h1 : Prim h (h ++ [mkBlock n none]) := .new (by simp)
    have := subblockLoop_prims b h.length n keys (h ++ [mkBlock n none])
    split <;> rename_i heq
    · exact .refl
    · rw [heq] at this; exact (Prims.one h1).trans this

theorem step_prims (h : Heap) (op : Op) : Prims h (step h op) := by
  cases op <;> simp only [step]
  case emptyConfig n => exact .one (.new (by simp))
  case subblock b k => exact subblock_prims h b k
  case subblockView b k =>
    unfold subblockView
    split
    · exact .refl
    · rename_i hb
      exact .one (.new (by
        intro q hq; cases hq
        exact (List.getElem?_eq_some_iff.1 hb).1))
  case setValue b k v d => exact setValueF_prims _ _ _ _ _ _
  case unsetValue b k => exact unsetValueF_prims _ _ _ _
  case markReadOnly b k =>
    unfold markReadOnly
    split
    · exact .refl
    · rename_i hb; exact .one (.mark hb)
  case mergeConfig b c =>
    unfold mergeConfig
    split
    · exact .refl
    · exact mergeLoop_prims _ _ _ _
  case setLocation b k l =>
    unfold setLocation
    split
    · exact .refl
    · rename_i hb; exact .one (.loc hb)

theorem foldl_prims (ops : List Op) (h : Heap) : Prims h (ops.foldl step h) := by
  induction ops generalizing h with
  | nil => exact .refl
  | cons o ops ih => exact (step_prims h o).trans (ih _)

/-! ### Representation invariant -/

structure BlockOk (i : Nat) (blk : Block) : Prop where
  parent_lt : ∀ p, blk.parent = some p → p < i
  sorted_store : OMap.Sorted blk.store
  sorted_descr : OMap.Sorted blk.descr
  same : ∀ k, blk.store.contains k = blk.descr.contains k
  trimmed : ∀ k v, blk.store.find? k = some v → trim v = v
  view_empty : blk.parent ≠ none → blk.store = [] ∧ blk.descr = []

def WF (h : Heap) : Prop := ∀ i blk, h[i]? = some blk → BlockOk i blk

theorem getElem?_set' {h : Heap} {r i : Nat} {x : Block} :
    (h.set r x)[i]? = if r = i then (if r < h.length then some x else none) else h[i]? := by
  rw [List.getElem?_set]

theorem lt_of_some {h : Heap} {i : Nat} {b : Block} (e : h[i]? = some b) : i < h.length :=
  (List.getElem?_eq_some_iff.1 e).1

theorem wf_set {h : Heap} {r : Nat} {x : Block} (w : WF h) (hx : BlockOk r x) : WF (h.set r x) := by
  intro i blk hi
  rw [getElem?_set'] at hi
  split at hi
  · rename_i e; subst e
    split at hi
    · cases hi; exact hx
    · cases hi
  · exact w i blk hi

theorem contains_insert (m : OMap Str Str) (k k' v : Str) :
    (m.insert k v).contains k' = (decide (k' = k) || m.contains k') := by
  unfold OMap.contains
  rw [OMap.find?_insert]
  split <;> simp_all

theorem contains_erase (m : OMap Str Str) (k k' : Str) :
    (m.erase k).contains k' = (!decide (k' = k) && m.contains k') := by
  unfold OMap.contains
  rw [OMap.find?_erase]
  split <;> simp_all

theorem ok_put {r : Nat} {blk : Block} (w : BlockOk r blk) (hp : blk.parent = none) (k v d : Str) :
    BlockOk r (blk.put k v d) where
  parent_lt := by intro p hpp; simp [Block.put, hp] at hpp
  sorted_store := OMap.sorted_insert w.sorted_store _ _
  sorted_descr := by
    simp only [Block.put]
    split
    · exact OMap.sorted_insert w.sorted_descr _ _
    · exact w.sorted_descr
  same := by
    intro k'
    simp only [Block.put]
    rw [contains_insert]
    split
    · rw [contains_insert, w.same]
    · rename_i h
      by_cases e : k' = k
      · subst e; simp at h; simp [h.1]
      · simp [e, w.same]
  trimmed := by
    intro k' v' h
    simp only [Block.put] at h
    rw [OMap.find?_insert] at h
    split at h
    · cases h; exact trim_trim v
    · exact w.trimmed _ _ h
  view_empty := by intro h; exact absurd hp h

theorem ok_del {r : Nat} {blk : Block} (w : BlockOk r blk) (hp : blk.parent = none) (k : Str) :
    BlockOk r (blk.del k) where
  parent_lt := by intro p hpp; simp [Block.del, hp] at hpp
  sorted_store := OMap.sorted_erase w.sorted_store _
  sorted_descr := OMap.sorted_erase w.sorted_descr _
  same := by intro k'; simp only [Block.del]; rw [contains_erase, contains_erase, w.same]
  trimmed := by
    intro k' v' h
    simp only [Block.del] at h
    rw [OMap.find?_erase] at h
    split at h
    · cases h
    · exact w.trimmed _ _ h
  view_empty := by intro h; exact absurd hp h

theorem wf_prim {h h' : Heap} (p : Prim h h') (w : WF h) : WF h' := by
  cases p with
  | new hp =>
    intro i blk hi
    rw [List.getElem?_append] at hi
    split at hi
    · exact w i blk hi
    · rename_i hlt
      have : i = h.length := by
        have := lt_of_some (h := [mkBlock _ _]) hi
        simp at this; omega
      subst this
      simp at hi; subst hi
      exact ⟨hp, List.Pairwise.nil, List.Pairwise.nil, fun _ => rfl,
        (by intro _ _ h; cases h), fun _ => ⟨rfl, rfl⟩⟩
  | put hb hp hro => exact wf_set w (ok_put (w _ _ hb) hp _ _ _)
  | del hb hp hro => exact wf_set w (ok_del (w _ _ hb) hp _)
  | delUb hb hp hro hs hd => have := (w _ _ hb).same; rw [this] at hs; rw [hs] at hd; cases hd
  | mark hb =>
    have o := w _ _ hb
    exact wf_set w ⟨o.1, o.2, o.3, o.4, o.5, o.6⟩
  | loc hb =>
    have o := w _ _ hb
    exact wf_set w ⟨o.1, o.2, o.3, o.4, o.5, o.6⟩

theorem wf_prims {h h' : Heap} (p : Prims h h') (w : WF h) : WF h' := by
  induction p with
  | refl => exact w
  | tail _ q ih => exact wf_prim q ih

theorem wf_nil : WF [] := by intro i blk h; simp at h

theorem Reachable.prims {h : Heap} (hr : Reachable h) : Prims [] h := by
  obtain ⟨ops, rfl⟩ := hr; exact foldl_prims ops []

theorem Reachable.wf {h : Heap} (hr : Reachable h) : WF h := wf_prims hr.prims wf_nil

theorem Reachable.step {h : Heap} (hr : Reachable h) (op : Op) : Reachable (step h op) := by
  obtain ⟨ops, rfl⟩ := hr
  exact ⟨ops ++ [op], by simp [run]⟩

theorem Reachable.steps {h : Heap} (hr : Reachable h) (ops : List Op) :
    Reachable (ops.foldl Config.step h) := by
  induction ops generalizing h with
  | nil => exact hr
  | cons o ops ih => exact ih (hr.step o)

/-! ### Every live handle denotes entries of exactly one root -/

theorem viewOf_total {h : Heap} (w : WF h) : ∀ b, b < h.length → ∃ r pre, ViewOf h b r pre := by
  intro b
  induction b using Nat.strongRecOn with
  | _ b ih =>
    intro hb
    obtain ⟨blk, hblk⟩ : ∃ blk, h[b]? = some blk := ⟨_, List.getElem?_eq_getElem hb⟩
    cases hp : blk.parent with
    | none => exact ⟨b, [], .root hblk hp⟩
    | some p =>
      have hlt := (w _ _ hblk).parent_lt p hp
      obtain ⟨r, pre, hv⟩ := ih p hlt (by omega)
      exact ⟨r, _, .view hblk hp hv⟩

theorem ViewOf.root_of {h : Heap} {b r : Nat} {pre : Str} (v : ViewOf h b r pre) : IsRoot h r := by
  induction v with
  | root h1 h2 => exact ⟨_, h1, h2⟩
  | view _ _ _ ih => exact ih

theorem ViewOf.lt {h : Heap} {b r : Nat} {pre : Str} (v : ViewOf h b r pre) : b < h.length := by
  cases v with
  | root h1 h2 => exact lt_of_some h1
  | view h1 _ _ => exact lt_of_some h1

theorem ViewOf.unique {h : Heap} {b r : Nat} {pre : Str} (v : ViewOf h b r pre) :
    ∀ {r' pre'}, ViewOf h b r' pre' → r' = r ∧ pre' = pre := by
  induction v with
  | root h1 h2 =>
    intro r' pre' v'
    cases v' with
    | root _ _ => exact ⟨rfl, rfl⟩
    | view h3 h4 _ => rw [h1] at h3; cases h3; rw [h2] at h4; cases h4
  | view h1 h2 _ ih =>
    intro r' pre' v'
    cases v' with
    | root h3 h4 => rw [h1] at h3; cases h3; rw [h2] at h4; cases h4
    | view h3 h4 v' =>
      rw [h1] at h3; cases h3; rw [h2] at h4; cases h4
      obtain ⟨e1, e2⟩ := ih v'
      exact ⟨e1, by rw [e2]⟩

theorem viewOf_self {h : Heap} {r : Nat} {pre : Str} (hr : IsRoot h r) (v : ViewOf h r r pre) :
    pre = [] := by
  obtain ⟨blk, h1, h2⟩ := hr
  exact (ViewOf.unique (.root h1 h2) v).2

/-! ### Resolution of each member function at the root -/

theorem descF_view {h : Heap} (w : WF h) {b r : Nat} {pre : Str} (v : ViewOf h b r pre)
    {rb : Block} (hr : h[r]? = some rb) :
    ∀ n k, b < n → getDescriptionF n h b k =
      match rb.descr.find? (pre ++ k) with | none => .error (.noSuch (pre ++ k)) | some d => .ok d := by
  induction v with
  | root h1 h2 =>
    intro n k hn
    cases n with
    | zero => omega
    | succ n => rw [h1] at hr; cases hr; simp only [getDescriptionF, h1, h2, List.nil_append]; rfl
  | view h1 h2 _ ih =>
    intro n k hn
    cases n with
    | zero => omega
    | succ n =>
      have := (w _ _ h1).parent_lt _ h2
      simp only [getDescriptionF, h1, h2]
      rw [ih hr n _ (by omega)]
      simp [blockSep]

theorem hasF_view {h : Heap} (w : WF h) {b r : Nat} {pre : Str} (v : ViewOf h b r pre)
    {rb : Block} (hr : h[r]? = some rb) :
    ∀ n k, b < n → hasValueF n h b k = .ok (rb.store.contains (pre ++ k)) := by
  induction v with
  | root h1 h2 =>
    intro n k hn
    cases n with
    | zero => omega
    | succ n => rw [h1] at hr; cases hr; simp only [hasValueF, h1, h2, List.nil_append]
  | view h1 h2 _ ih =>
    intro n k hn
    cases n with
    | zero => omega
    | succ n =>
      have := (w _ _ h1).parent_lt _ h2
      simp only [hasValueF, h1, h2]
      rw [ih hr n _ (by omega)]
      simp [blockSep]

theorem iGetF_view {h : Heap} (w : WF h) {b r : Nat} {pre : Str} (v : ViewOf h b r pre)
    {rb : Block} (hr : h[r]? = some rb) :
    ∀ n k, b < n → iGetValueF n h b k = .ok ((rb.store.find? (pre ++ k)).getD []) := by
  induction v with
  | root h1 h2 =>
    intro n k hn
    cases n with
    | zero => omega
    | succ n =>
      rw [h1] at hr; cases hr; simp only [iGetValueF, h1, h2, List.nil_append]
      split <;> rename_i e <;> simp [e]
  | view h1 h2 _ ih =>
    intro n k hn
    cases n with
    | zero => omega
    | succ n =>
      have := (w _ _ h1).parent_lt _ h2
      simp only [iGetValueF, h1, h2]
      rw [ih hr n _ (by omega)]
      simp [blockSep]

theorem setF_view {h : Heap} (w : WF h) {b r : Nat} {pre : Str} (v : ViewOf h b r pre)
    {rb : Block} (hr : h[r]? = some rb) :
    ∀ n k x d, b < n → iSetValueF n h b k x d =
      if rb.ro.contains (pre ++ k) then
        (h, .error (.setRO (pre ++ k) (currentValue rb (pre ++ k)) x))
      else (h.set r (rb.put (pre ++ k) x d), .ok ()) := by
  induction v with
  | root h1 h2 =>
    intro n k x d hn
    cases n with
    | zero => omega
    | succ n =>
      rw [h1] at hr; cases hr; simp only [iSetValueF, h1, h2, List.nil_append, Block.put]
  | view h1 h2 _ ih =>
    intro n k x d hn
    cases n with
    | zero => omega
    | succ n =>
      have := (w _ _ h1).parent_lt _ h2
      simp only [iSetValueF, h1, h2]
      rw [ih hr n _ _ _ (by omega)]
      simp [blockSep]

theorem unsetF_view {h : Heap} (w : WF h) {b r : Nat} {pre : Str} (v : ViewOf h b r pre)
    {rb : Block} (hr : h[r]? = some rb) :
    ∀ n k, b < n → unsetValueF n h b k =
      if rb.ro.contains (pre ++ k) then
        (h, .error (.unsetRO (pre ++ k) (currentValue rb (pre ++ k))))
      else if !rb.store.contains (pre ++ k) then (h, .error (.noSuch (pre ++ k)))
      else (h.set r (rb.del (pre ++ k)), .ok ()) := by
  induction v with
  | root h1 h2 =>
    intro n k hn
    cases n with
    | zero => omega
    | succ n =>
      rw [h1] at hr; cases hr; simp only [unsetValueF, h1, h2, List.nil_append]
      rw [← (w _ _ h1).same]
      split
      · rfl
      · split
        · rfl
        · simp only [Block.del, h2]
  | view h1 h2 _ ih =>
    intro n k hn
    cases n with
    | zero => omega
    | succ n =>
      have := (w _ _ h1).parent_lt _ h2
      simp only [unsetValueF, h1, h2]
      rw [ih hr n _ (by omega)]
      simp [blockSep]

theorem desc_view {h : Heap} (w : WF h) {b r : Nat} {pre : Str} (v : ViewOf h b r pre)
    {rb : Block} (hr : h[r]? = some rb) (k : Str) : getDescription h b k =
      match rb.descr.find? (pre ++ k) with | none => .error (.noSuch (pre ++ k)) | some d => .ok d :=
  descF_view w v hr _ _ v.lt

theorem has_view {h : Heap} (w : WF h) {b r : Nat} {pre : Str} (v : ViewOf h b r pre)
    {rb : Block} (hr : h[r]? = some rb) (k : Str) :
    hasValue h b k = .ok (rb.store.contains (pre ++ k)) := hasF_view w v hr _ _ v.lt

theorem iGet_view {h : Heap} (w : WF h) {b r : Nat} {pre : Str} (v : ViewOf h b r pre)
    {rb : Block} (hr : h[r]? = some rb) (k : Str) :
    iGetValue h b k = .ok ((rb.store.find? (pre ++ k)).getD []) := iGetF_view w v hr _ _ v.lt

theorem set_view {h : Heap} (w : WF h) {b r : Nat} {pre : Str} (v : ViewOf h b r pre)
    {rb : Block} (hr : h[r]? = some rb) (k x d : Str) : setValue h b k x d =
      if rb.ro.contains (pre ++ k) then
        (h, .error (.setRO (pre ++ k) (currentValue rb (pre ++ k)) x))
      else (h.set r (rb.put (pre ++ k) x d), .ok ()) := setF_view w v hr _ _ _ _ v.lt

theorem unset_view {h : Heap} (w : WF h) {b r : Nat} {pre : Str} (v : ViewOf h b r pre)
    {rb : Block} (hr : h[r]? = some rb) (k : Str) : unsetValue h b k =
      if rb.ro.contains (pre ++ k) then
        (h, .error (.unsetRO (pre ++ k) (currentValue rb (pre ++ k))))
      else if !rb.store.contains (pre ++ k) then (h, .error (.noSuch (pre ++ k)))
      else (h.set r (rb.del (pre ++ k)), .ok ()) := unsetF_view w v hr _ _ v.lt

theorem find_view {h : Heap} (w : WF h) {b r : Nat} {pre : Str} (v : ViewOf h b r pre)
    {rb : Block} (hr : h[r]? = some rb) (k : Str) :
    findValue h b k = .ok (rb.store.find? (pre ++ k)) := by
  unfold findValue
  rw [has_view w v hr, iGet_view w v hr]
  unfold OMap.contains
  cases rb.store.find? (pre ++ k) <;> rfl

theorem getAs_view {T : Type} (cast : Str → Option T) {h : Heap} (w : WF h) {b r : Nat} {pre : Str}
    (v : ViewOf h b r pre) {rb : Block} (hr : h[r]? = some rb) (k : Str) :
    getValueAs cast h b k = match rb.store.find? (pre ++ k) with
      | none => .error (.noSuch k)
      | some x => match cast x with | none => .error (.badCast k x) | some t => .ok t := by
  unfold getValueAs
  rw [find_view w v hr]
  cases rb.store.find? (pre ++ k) <;> rfl

theorem get_view {h : Heap} (w : WF h) {b r : Nat} {pre : Str} (v : ViewOf h b r pre)
    {rb : Block} (hr : h[r]? = some rb) (k : Str) :
    getValue h b k = match rb.store.find? (pre ++ k) with
      | none => .error (.noSuch k) | some x => .ok x := by
  unfold getValue; rw [getAs_view _ w v hr]; cases rb.store.find? (pre ++ k) <;> rfl

/-! ### Updates do not disturb views -/

theorem viewOf_mono {h h' : Heap}
    (hh : ∀ (i : Nat) (blk : Block), h[i]? = some blk → ∃ blk' : Block, h'[i]? = some blk' ∧ blk'.parent = blk.parent ∧
      blk'.name = blk.name) {b r : Nat} {pre : Str} (v : ViewOf h b r pre) : ViewOf h' b r pre := by
  induction v with
  | root h1 h2 =>
    obtain ⟨b', e1, e2, e3⟩ := hh _ _ h1
    exact .root e1 (by rw [e2, h2])
  | view h1 h2 _ ih =>
    obtain ⟨b', e1, e2, e3⟩ := hh _ _ h1
    rw [← e3]
    exact .view e1 (by rw [e2, h2]) ih

/-- All blocks keep parent and name. -/
def Same (h h' : Heap) : Prop := ∀ (i : Nat) (blk : Block), h[i]? = some blk →
  ∃ blk' : Block, h'[i]? = some blk' ∧ blk'.parent = blk.parent ∧ blk'.name = blk.name

theorem same_set {h : Heap} {r : Nat} {blk x : Block} (hb : h[r]? = some blk)
    (h1 : x.parent = blk.parent) (h2 : x.name = blk.name) : Same h (h.set r x) := by
  intro i b hi
  rw [getElem?_set']
  split
  · rename_i e; subst e
    rw [if_pos (lt_of_some hb)]
    rw [hb] at hi; cases hi
    exact ⟨x, rfl, h1, h2⟩
  · exact ⟨b, hi, rfl, rfl⟩

theorem same_append (h t : Heap) : Same h (h ++ t) := by
  intro i b hi
  exact ⟨b, by rw [List.getElem?_append_left (lt_of_some hi)]; exact hi, rfl, rfl⟩

theorem same_prim {h h' : Heap} (p : Prim h h') : Same h h' := by
  cases p with
  | new => exact same_append _ _
  | put hb _ _ => exact same_set hb rfl rfl
  | del hb _ _ => exact same_set hb rfl rfl
  | delUb hb _ _ _ _ => exact same_set hb rfl rfl
  | mark hb => exact same_set hb rfl rfl
  | loc hb => exact same_set hb rfl rfl

theorem Same.trans {a b c : Heap} (h1 : Same a b) (h2 : Same b c) : Same a c := by
  intro i blk hi
  obtain ⟨b1, e1, e2, e3⟩ := h1 i blk hi
  obtain ⟨b2, f1, f2, f3⟩ := h2 i b1 e1
  exact ⟨b2, f1, by rw [f2, e2], by rw [f3, e3]⟩

theorem same_prims {h h' : Heap} (p : Prims h h') : Same h h' := by
  induction p with
  | refl => intro i b hi; exact ⟨b, hi, rfl, rfl⟩
  | tail _ q ih => exact ih.trans (same_prim q)

theorem ViewOf.prims {h h' : Heap} (p : Prims h h') {b r : Nat} {pre : Str} (v : ViewOf h b r pre) :
    ViewOf h' b r pre := viewOf_mono (same_prims p) v

/-! ### Lookups after an update of root `r` -/

theorem set_same {h : Heap} {r : Nat} {blk x : Block} (hb : h[r]? = some blk) :
    (h.set r x)[r]? = some x := by
  rw [getElem?_set', if_pos rfl, if_pos (lt_of_some hb)]

theorem set_other {h : Heap} {r i : Nat} {x : Block} (hne : i ≠ r) : (h.set r x)[i]? = h[i]? := by
  rw [getElem?_set', if_neg (Ne.symm hne)]

theorem put_find (blk : Block) (k v d k' : Str) :
    (blk.put k v d).store.find? k' = if k' = k then some (trim v) else blk.store.find? k' := by
  simp only [Block.put]; exact OMap.find?_insert _ _ _ _

theorem put_descr (blk : Block) (k v d k' : Str) :
    (blk.put k v d).descr.find? k' =
      if k' = k then (if d = [] then some ((blk.descr.find? k).getD []) else some d)
      else blk.descr.find? k' := by
  simp only [Block.put]
  by_cases hd : d = []
  · subst hd
    simp only [List.length_nil, Nat.lt_irrefl, decide_false, Bool.or_false, Bool.not_eq_true',
      OMap.contains, ↓reduceIte]
    cases hf : blk.descr.find? k
    · simp only [Option.isSome_none, ↓reduceIte, Option.getD_none]
      rw [OMap.find?_insert]
    · simp only [Option.isSome_some, Bool.true_eq_false, ↓reduceIte, Option.getD_some]
      split
      · rename_i e; rw [e, hf]
      · rfl
  · have : 0 < d.length := by cases d <;> simp_all
    simp only [this, decide_true, Bool.or_true, ↓reduceIte, hd]
    rw [OMap.find?_insert]

theorem del_find (blk : Block) (k k' : Str) :
    (blk.del k).store.find? k' = if k' = k then none else blk.store.find? k' := OMap.find?_erase _ _ _

theorem del_descr (blk : Block) (k k' : Str) :
    (blk.del k).descr.find? k' = if k' = k then none else blk.descr.find? k' := OMap.find?_erase _ _ _

end Vital.Config
