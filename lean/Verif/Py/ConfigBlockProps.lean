import Verif.Py.ConfigBlock
import Verif.Basic.Decimal
/- Proofs of C211 - C213. -/
namespace Vital.Py.CB
open Vital Vital.Config Vital.CApi

/-- The Python side, the documented program and the C++ program of the C interface belong together. -/
structure R (s : St) (p : Prog) (q : Cfg.Prog) : Prop where
  rel : Cfg.Rel s.c q
  ok : q.Ok
  heap : p.heap = q.heap
  len : s.objs.length = p.objs.length
  null : ∀ x : Nat, p.objs[x]? = some (some none) → s.objs[x]? = some (some 0)
  live : ∀ x b : Nat, p.objs[x]? = some (some (some b)) → ∃ cb, s.objs[x]? = some (some cb) ∧ q.table cb = some b
  gone : ∀ x : Nat, p.objs[x]? = some none → s.objs[x]? = some none
  uniq : ∀ x y cb : Nat, s.objs[x]? = some (some cb) → s.objs[y]? = some (some cb) → cb ≠ 0 → x = y
  dom : ∀ cb b : Nat, q.table cb = some b → ∃ x : Nat, s.objs[x]? = some (some cb)
  owed : s.owed = 0

theorem R.init : R St.init Prog.init Cfg.Prog.init :=
  ⟨Cfg.init_rel, Cfg.init_ok, rfl, rfl, by intro x h; simp [Prog.init] at h, by intro x b h; simp [Prog.init] at h, by intro x h; simp [Prog.init] at h,
    by intro x y cb h; simp [St.init] at h, by intro cb b h; simp [Cfg.Prog.init] at h, rfl⟩

variable {s : St} {p : Prog} {q : Cfg.Prog}

theorem R.legal (r : R s p q) {a : Nat} (h : Fresh s a) : Cfg.Legal q a := by
  refine ⟨h.1, fun b hl => ?_⟩
  obtain ⟨cb, b', ht, hk⟩ := hl
  obtain ⟨x, hx⟩ := r.dom cb b' ht
  rw [← r.rel.addr]
  refine h.2 x cb ⟨cb, b'⟩ b hx ((Cfg.get_table r.rel r.ok cb).1 b' ht) ?_
  rw [r.rel.heap]; exact hk

theorem R.table (r : R s p q) {x : Nat} (hx : ∃ v, p.objs[x]? = some (some v)) : q.table (s.ptr x) = p.blk x := by
  obtain ⟨v, hv⟩ := hx
  unfold St.ptr Prog.blk
  rw [hv]
  cases v with
  | none => rw [r.null x hv]; exact r.ok.null
  | some b =>
    obtain ⟨cb, h1, h2⟩ := r.live x b hv
    rw [h1]; exact h2

theorem R.get_none (r : R s p q) {x : Nat} (hx : ∃ v, p.objs[x]? = some (some v)) (h : p.blk x = none) : ∃ e, get s.c.cache (s.ptr x) = .error e :=
  (Cfg.get_table r.rel r.ok _).2 (by rw [r.table hx, h])

theorem R.get_some (r : R s p q) {x b : Nat} (hx : ∃ v, p.objs[x]? = some (some v)) (h : p.blk x = some b) : get s.c.cache (s.ptr x) = .ok ⟨s.ptr x, b⟩ :=
  (Cfg.get_table r.rel r.ok _).1 b (by rw [r.table hx, h])

theorem R.sheap (r : R s p q) : s.c.heap = p.heap := by rw [r.rel.heap, r.heap]

/-- Only counting changes. -/
theorem R.same (r : R s p q) {s' : St} (h1 : s'.c = s.c) (h2 : s'.objs = s.objs) (h3 : s'.owed = 0) : R s' p q :=
  ⟨by rw [h1]; exact r.rel, r.ok, r.heap, by rw [h2]; exact r.len, by rw [h2]; exact r.null, by rw [h2]; exact r.live, by rw [h2]; exact r.gone,
    by rw [h2]; exact r.uniq, by rw [h2]; exact r.dom, h3⟩

/-- A change of blocks through a handle. -/
theorem R.wrote (r : R s p q) {c' : Cfg.St} {q' : Cfg.Prog} (h1 : Cfg.Rel c' q') (h2 : q'.Ok) (h3 : q'.table = q.table) {hp : Heap} (h4 : hp = q'.heap) :
    R { s with c := c' } { p with heap := hp } q' :=
  ⟨h1, h2, h4, r.len, r.null, by rw [h3]; exact r.live, r.gone, r.uniq, by rw [h3]; exact r.dom, r.owed⟩

theorem R.tell (r : R s p q) {a x : Nat} (ha : Fresh s a) (hx : ∃ v, p.objs[x]? = some (some v)) (c : Cfg.Call) (f : Heap → Nat → Heap)
    (hc : Cfg.spec q a c = q.write (s.ptr x) f) : ∃ q', R { s with c := (Cfg.exec s.c a c).1 } (p.tell x f).1 q' ∧ (p.tell x f).2 = .ok .none := by
  have hl := r.legal ha
  obtain ⟨h1, _⟩ := Cfg.rel_exec r.rel r.ok hl c
  have h2 := Cfg.ok_spec r.ok hl c
  rw [hc] at h1 h2
  unfold Cfg.Prog.write at h1 h2
  rw [r.table hx] at h1 h2
  unfold Prog.tell
  cases hb : p.blk x with
  | none =>
    rw [hb] at h1 h2
    exact ⟨q, r.wrote h1 h2 rfl (hp := p.heap) r.heap, rfl⟩
  | some b =>
    rw [hb] at h1 h2
    refine ⟨_, r.wrote h1 h2 rfl ?_, rfl⟩
    simp only
    rw [r.heap]

/-- A new object. -/
theorem R.made (r : R s p q) {a : Nat} {c' : Cfg.St} {hp : Heap} (ha : Cfg.Legal q a) (h1 : Cfg.Rel c' (q.created hp a).1) (h2 : (q.created hp a).1.Ok) :
    R { s with c := c', objs := s.objs ++ [some a] } (p.make (hp, .ok q.heap.length)).1 (q.created hp a).1 := by
  have hn := Cfg.table_of_legal r.ok ha
  have hno : ∀ x : Nat, s.objs[x]? ≠ some (some a) := by
    intro x hx
    have hlt : x < p.objs.length := by rw [← r.len]; exact (List.getElem?_eq_some_iff.1 hx).1
    cases hv : p.objs[x] with
    | none => rw [r.gone x (by rw [List.getElem?_eq_getElem hlt, hv])] at hx; cases hx
    | some v =>
      cases v with
      | none =>
        rw [r.null x (by rw [List.getElem?_eq_getElem hlt, hv])] at hx
        exact ha.1 (by cases hx; rfl)
      | some b =>
        obtain ⟨cb, e1, e2⟩ := r.live x b (by rw [List.getElem?_eq_getElem hlt, hv])
        rw [hx] at e1
        cases e1
        rw [hn] at e2; cases e2
  have app : ∀ {α : Type} {l : List α} {v w : α} {x : Nat}, (l ++ [v])[x]? = some w → (l[x]? = some w ∧ x < l.length) ∨ (x = l.length ∧ w = v) := by
    intro α l v w x h
    by_cases hlt : x < l.length
    · rw [List.getElem?_append_left hlt] at h; exact .inl ⟨h, hlt⟩
    · rw [List.getElem?_append_right (by omega)] at h
      right
      obtain ⟨hl, e⟩ := List.getElem?_eq_some_iff.1 h
      simp at hl
      refine ⟨by omega, ?_⟩
      have : x - l.length = 0 := by omega
      simp [this] at e
      exact e.symm
  have old : ∀ {w : Option Nat} {x : Nat}, s.objs[x]? = some w → (s.objs ++ [some a])[x]? = some w := by
    intro w x h
    rw [List.getElem?_append_left (List.getElem?_eq_some_iff.1 h).1]; exact h
  have hlast : (s.objs ++ [some a])[p.objs.length]? = some (some a) := by rw [← r.len]; simp
  refine ⟨h1, h2, rfl, by simp [Prog.make, r.len], ?_, ?_, ?_, ?_, ?_, r.owed⟩
  · intro x h
    replace h : (p.objs ++ [some (some q.heap.length)])[x]? = some (some none) := h
    rcases app h with ⟨h, _⟩ | ⟨_, h⟩
    · exact old (r.null x h)
    · simp at h
  · intro x b h
    replace h : (p.objs ++ [some (some q.heap.length)])[x]? = some (some (some b)) := h
    rcases app h with ⟨h, _⟩ | ⟨rfl, h⟩
    · obtain ⟨cb, e1, e2⟩ := r.live x b h
      refine ⟨cb, old e1, ?_⟩
      show (if cb = a then some q.heap.length else q.table cb) = some b
      rw [if_neg (by rintro rfl; exact hno x e1)]
      exact e2
    · refine ⟨a, hlast, ?_⟩
      simp at h
      simp [Cfg.Prog.created, h]
  · intro x h
    rcases app h with ⟨h, _⟩ | ⟨_, h⟩
    · exact old (r.gone x h)
    · cases h
  · intro x y cb hx hy h0
    replace hx : (s.objs ++ [some a])[x]? = some (some cb) := hx
    replace hy : (s.objs ++ [some a])[y]? = some (some cb) := hy
    rcases app hx with ⟨ix, _⟩ | ⟨ex, ix⟩
    · rcases app hy with ⟨iy, _⟩ | ⟨ey, iy⟩
      · exact r.uniq x y cb ix iy h0
      · injection iy with iy; subst iy; exact absurd ix (hno x)
    · rcases app hy with ⟨iy, _⟩ | ⟨ey, iy⟩
      · injection ix with ix; subst ix; exact absurd iy (hno y)
      · rw [ex, ey]
  · intro cb b ht
    simp only [Cfg.Prog.created] at ht
    split at ht
    · rename_i h; subst h; exact ⟨_, hlast⟩
    · obtain ⟨x, hx⟩ := r.dom cb b ht
      exact ⟨x, old hx⟩

/-- A new object without a block. -/
theorem R.nullObj (r : R s p q) {c' : Cfg.St} (h1 : Cfg.Rel c' q) (e : Exc) :
    R { s with c := c', objs := s.objs ++ [some 0] } (p.make (p.heap, .error e)).1 q := by
  have app : ∀ {α : Type} {l : List α} {v w : α} {x : Nat}, (l ++ [v])[x]? = some w → (l[x]? = some w ∧ x < l.length) ∨ (x = l.length ∧ w = v) := by
    intro α l v w x h
    by_cases hlt : x < l.length
    · rw [List.getElem?_append_left hlt] at h; exact .inl ⟨h, hlt⟩
    · rw [List.getElem?_append_right (by omega)] at h
      right
      obtain ⟨hl, e⟩ := List.getElem?_eq_some_iff.1 h
      simp at hl
      refine ⟨by omega, ?_⟩
      have : x - l.length = 0 := by omega
      simp [this] at e
      exact e.symm
  have old : ∀ {w : Option Nat} {x : Nat}, s.objs[x]? = some w → (s.objs ++ [some 0])[x]? = some w := by
    intro w x h
    rw [List.getElem?_append_left (List.getElem?_eq_some_iff.1 h).1]; exact h
  refine ⟨h1, r.ok, r.heap, by simp [Prog.make, r.len], ?_, ?_, ?_, ?_, ?_, r.owed⟩
  · intro x h
    replace h : (p.objs ++ [some none])[x]? = some (some none) := h
    rcases app h with ⟨h, _⟩ | ⟨rfl, h⟩
    · exact old (r.null x h)
    · rw [← r.len]; simp
  · intro x b h
    replace h : (p.objs ++ [some none])[x]? = some (some (some b)) := h
    rcases app h with ⟨h, _⟩ | ⟨rfl, h⟩
    · obtain ⟨cb, e1, e2⟩ := r.live x b h
      exact ⟨cb, old e1, e2⟩
    · simp at h
  · intro x h
    rcases app h with ⟨h, _⟩ | ⟨_, h⟩
    · exact old (r.gone x h)
    · cases h
  · intro x y cb hx hy h0
    replace hx : (s.objs ++ [some 0])[x]? = some (some cb) := hx
    replace hy : (s.objs ++ [some 0])[y]? = some (some cb) := hy
    rcases app hx with ⟨hx, _⟩ | ⟨ex, hx⟩
    · rcases app hy with ⟨hy, _⟩ | ⟨ey, hy⟩
      · exact r.uniq x y cb hx hy h0
      · injection hy with hy; exact absurd hy h0
    · injection hx with hx; exact absurd hx h0
  · intro cb b ht
    obtain ⟨x, hx⟩ := r.dom cb b ht
    exact ⟨x, old hx⟩

/-- A call that makes a block from the block of an object. -/
theorem R.sub (r : R s p q) {a x : Nat} (ha : Fresh s a) (hx : ∃ v, p.objs[x]? = some (some v)) (c : Cfg.Call) (f : Heap → Nat → Heap × Except Exc Nat)
    (f1 : ∀ b hp e, f q.heap b = (hp, .error e) → hp = q.heap) (f2 : ∀ b hp n, f q.heap b = (hp, .ok n) → n = q.heap.length)
    (hc : Cfg.spec q a c = q.make a (s.ptr x) f) :
    let m := match p.blk x with
      | none => (p.heap, .error .ub)
      | some b => f p.heap b
    ∃ q', R (newObj s (Cfg.exec s.c a c)).1 (p.make m).1 q' ∧ (newObj s (Cfg.exec s.c a c)).2 = some (p.make m).2 := by
  intro m
  have hl := r.legal ha
  obtain ⟨h1, h1'⟩ := Cfg.rel_exec r.rel r.ok hl c
  have h2 := Cfg.ok_spec r.ok hl c
  rw [hc] at h1 h1' h2
  unfold Cfg.Prog.make at h1 h1' h2
  rw [r.table hx] at h1 h1' h2
  have hout : (newObj s (Cfg.exec s.c a c)).2 = some (p.make m).2 := by simp [newObj, Prog.make, r.len]
  unfold newObj
  cases hb : p.blk x with
  | none =>
    rw [hb] at h1 h1' h2
    simp only at h1 h1' h2
    refine ⟨q, ?_, hout⟩
    rw [h1']
    simp only [m, hb]
    exact r.nullObj h1 .ub
  | some b =>
    rw [hb] at h1 h1' h2
    simp only at h1 h1' h2
    cases hf : f q.heap b with
    | mk hp res =>
      rw [hf] at h1 h1' h2
      cases res with
      | error e =>
        simp only at h1 h1' h2
        refine ⟨q, ?_, hout⟩
        rw [h1']
        simp only [m, hb]
        rw [r.heap, hf, f1 _ _ _ hf, ← r.heap]
        exact r.nullObj h1 e
      | ok n =>
        simp only at h1 h1' h2
        refine ⟨(q.created hp a).1, ?_, hout⟩
        rw [h1']
        simp only [m, hb]
        rw [r.heap, hf, f2 _ _ _ hf]
        exact r.made hl h1 h2

theorem pyStr_new (v : Str) : ∃ b, Cfg.newString v = .str (some b) ∧ pyStr b = cstr v := by
  refine ⟨_, rfl, ?_⟩
  obtain ⟨_, _, ⟨rest, h⟩, _⟩ := C72_string_new v
  rw [h]
  unfold pyStr
  have hm : ((cstr v ++ [nul]).map Option.some ++ rest).map (fun c => c.getD nul) = cstr v ++ nul :: rest.map (fun c => c.getD nul) := by
    simp [List.map_append, Function.comp_def]
  rw [hm]
  have hcv : ∀ c ∈ cstr v, (c != nul) = true := by
    unfold cstr
    intro c hc
    have := takeWhile_mem _ hc
    simpa using this
  generalize rest.map (fun c => c.getD nul) = r' at *
  generalize cstr v = w at *
  unfold cstr
  rw [List.takeWhile_append_of_pos hcv]
  simp

/-- A string result of the C side. -/
theorem gotStr_ok (s : St) (v : Str) (c' : Cfg.St) : gotStr s (c', Cfg.newString v) = ({ s with c := c', owed := s.owed + 1 }, some (cstr v)) := by
  obtain ⟨b, h1, h2⟩ := pyStr_new v
  unfold gotStr
  rw [h1]
  simp only [h2]

theorem R.value (r : R s p q) (what : Exc → Str) (dead : Str) {x : Nat} (hx : ∃ v, p.objs[x]? = some (some v)) (k : Str) (d : Option Str) :
    (getValueStr s x k d).1 = s ∧ (getValueStr s x k d).2 = docValue what dead p x k d := by
  unfold getValueStr docValue Prog.ask Cfg.getValue
  cases hb : p.blk x with
  | none =>
    obtain ⟨e, he⟩ := r.get_none hx hb
    rw [he]
    exact ⟨rfl, rfl⟩
  | some b =>
    rw [r.get_some hx hb]
    simp only [r.sheap]
    unfold Config.getValue
    cases hv : getValueAs castString p.heap b (cstr k) with
    | error e => exact ⟨rfl, rfl⟩
    | ok v =>
      simp only [gotStr_ok]
      simp [free]

theorem stringList_eq {usable : Nat → Nat} : ∀ {ks : List Str}, (stringList usable ks).isSome → stringList usable ks = some (ks.map cstr)
  | [], _ => rfl
  | k :: ks, h => by
    unfold stringList at h ⊢
    split at h
    · rename_i hc
      rw [if_pos hc]
      rw [Option.isSome_map] at h
      rw [stringList_eq h]; rfl
    · cases h

theorem R.keys (r : R s p q) (what : Exc → Str) (dead : Str) {usable : Nat → Nat} {x : Nat} (hx : ∃ v, p.objs[x]? = some (some v))
    (hs : ∀ ks, p.ask what dead x (fun h b => Config.availableValues h b) = .ok ks → (stringList usable ks).isSome) :
    (keyList usable s x).1 = s ∧ (keyList usable s x).2 = some (docKeys what dead p x) := by
  unfold Prog.ask at hs
  unfold keyList docKeys Prog.ask
  cases hb : p.blk x with
  | none =>
    obtain ⟨e, he⟩ := r.get_none hx hb
    rw [he]
    exact ⟨rfl, rfl⟩
  | some b =>
    rw [hb] at hs
    rw [r.get_some hx hb]
    simp only [r.sheap] at hs ⊢
    cases hv : Config.availableValues p.heap b with
    | error e => exact ⟨rfl, rfl⟩
    | ok ks =>
      simp only
      rw [stringList_eq (hs ks (by rw [hv]))]
      exact ⟨by simp [free], rfl⟩

theorem R.keys_ub (r : R s p q) (what : Exc → Str) (dead : Str) {usable : Nat → Nat} {x : Nat} (hx : ∃ v, p.objs[x]? = some (some v)) {ks : List Str}
    (hk : p.ask what dead x (fun h b => Config.availableValues h b) = .ok ks) (hs : stringList usable ks = none) :
    (keyList usable s x).1 = s ∧ (keyList usable s x).2 = none := by
  unfold Prog.ask at hk
  unfold keyList
  cases hb : p.blk x with
  | none => rw [hb] at hk; cases hk
  | some b =>
    rw [hb] at hk
    rw [r.get_some hx hb]
    simp only [r.sheap] at hk ⊢
    cases hv : Config.availableValues p.heap b with
    | error e => rw [hv] at hk; cases hk
    | ok ks' =>
      rw [hv] at hk; cases hk
      simp only
      rw [hs]
      exact ⟨by simp [free], rfl⟩

theorem dictSet_new {l : List Str} {f : Str → Option Str} {k : Str} (h : k ∉ l) : dictSet (l.map fun k => (k, f k)) k (f k) = (l ++ [k]).map fun k => (k, f k) := by
  unfold dictSet
  rw [if_neg (by simpa using h)]
  simp

theorem dictSet_old {l : List Str} {f : Str → Option Str} {k : Str} (h : k ∈ l) : dictSet (l.map fun k => (k, f k)) k (f k) = l.map fun k => (k, f k) := by
  unfold dictSet
  rw [if_pos (by simpa using h), List.map_map]
  refine List.map_congr_left fun a _ => ?_
  simp only [Function.comp]
  split
  · rename_i e; rw [e]
  · rfl

theorem R.dictLoop (r : R s p q) (what : Exc → Str) (dead : Str) {x : Nat} (hx : ∃ v, p.objs[x]? = some (some v)) : ∀ (ks l : List Str),
    Vital.Py.CB.dictLoop x ks s (l.map fun k => (k, docValue what dead p x k none)) =
      (s, (l ++ (firsts ks).filter (fun k => k ∉ l)).map fun k => (k, docValue what dead p x k none))
  | [], l => by simp [Vital.Py.CB.dictLoop, firsts]
  | k :: ks, l => by
    unfold Vital.Py.CB.dictLoop
    obtain ⟨h1, h2⟩ := r.value what dead hx k none
    rw [h1, h2]
    by_cases hk : k ∈ l
    · rw [dictSet_old (f := fun k => docValue what dead p x k none) hk, r.dictLoop what dead hx ks l]
      simp only [firsts, List.filter_cons, List.filter_filter]
      rw [if_neg (by simpa using hk)]
      congr 3
      refine List.filter_congr fun a _ => ?_
      by_cases ha : a ∈ l
      · simp [ha]
      · simp [ha, show a ≠ k from fun e => ha (e ▸ hk)]
    · rw [dictSet_new (f := fun k => docValue what dead p x k none) hk, r.dictLoop what dead hx ks (l ++ [k])]
      simp only [firsts, List.filter_cons, List.filter_filter]
      rw [if_pos (by simpa using hk)]
      rw [List.append_assoc, List.singleton_append]
      congr 4
      refine List.filter_congr fun a _ => ?_
      by_cases ha : a ∈ l <;> by_cases hb : a = k <;> simp [ha, hb]

theorem R.boolean (r : R s p q) (what : Exc → Str) (dead : Str) {x : Nat} (hx : ∃ v, p.objs[x]? = some (some v)) (f : Heap → Nat → Except Exc Bool)
    {y : Cfg.St × Cfg.Res} (hy : y = match get s.c.cache (s.ptr x) with
      | .error _ => (s.c, .bool false)
      | .ok sp => match f s.c.heap sp.tag with
        | .error _ => (s.c, .bool false)
        | .ok v => (s.c, .bool v)) :
    y.1 = s.c ∧ some (.ok (boolOf y.2)) = some (orFalse (p.ask what dead x f)) ∧
    thrown what dead s (s.ptr x) f = (match p.ask what dead x f with | .ok _ => none | .error t => some t) ∧
    (∀ v, p.ask what dead x f = .ok v → y.2 = .bool v) := by
  subst hy
  unfold Prog.ask thrown
  cases hb : p.blk x with
  | none =>
    obtain ⟨e, he⟩ := r.get_none hx hb
    rw [he]
    exact ⟨rfl, rfl, rfl, by intro v h; cases h⟩
  | some b =>
    rw [r.get_some hx hb]
    simp only [r.sheap]
    cases f p.heap b with
    | error e => exact ⟨rfl, rfl, rfl, by intro v h; cases h⟩
    | ok v => exact ⟨rfl, rfl, rfl, by intro v h; cases h; rfl⟩

theorem R.raising (r : R s p q) (what : Exc → Str) (dead : Str) {usable : Nat → Nat} {x : Nat} (hx : ∃ v, p.objs[x]? = some (some v)) (f : Heap → Nat → Except Exc Bool)
    {y : Cfg.St × Cfg.Res} (hy : y = match get s.c.cache (s.ptr x) with
      | .error _ => (s.c, .bool false)
      | .ok sp => match f s.c.heap sp.tag with
        | .error _ => (s.c, .bool false)
        | .ok v => (s.c, .bool v))
    (hs : ∀ t, p.ask what dead x f = .error t → (caught usable t).isSome) :
    withHandle usable (thrown what dead s (s.ptr x) f) y.2 = some (orRaise (p.ask what dead x f)) := by
  obtain ⟨_, _, h3, h4⟩ := r.boolean what dead hx f hy
  rw [h3]
  cases ha : p.ask what dead x f with
  | ok v =>
    rw [h4 v ha]
    rfl
  | error t =>
    have hc := hs t ha
    unfold withHandle
    simp only
    unfold caught at hc ⊢
    simp only at hc ⊢
    split at hc
    · rename_i h; rw [if_pos h]; rfl
    · cases hc

theorem R.string (r : R s p q) (what : Exc → Str) (dead : Str) {x : Nat} (hx : ∃ v, p.objs[x]? = some (some v)) (f : Heap → Nat → Except Exc Str) (g : Str → Str)
    (hg : ∀ v, cstr (g v) = cstr v) {y : Cfg.St × Cfg.Res} (hy : y = match get s.c.cache (s.ptr x) with
      | .error _ => (s.c, .str none)
      | .ok sp => match f s.c.heap sp.tag with
        | .error _ => (s.c, .str none)
        | .ok v => (s.c, Cfg.newString (g v)))
    {v : Str} (hv : p.ask what dead x f = .ok v) : gotStr s y = ({ s with owed := s.owed + 1 }, some (cstr v)) := by
  subst hy
  unfold Prog.ask at hv
  cases hb : p.blk x with
  | none => rw [hb] at hv; cases hv
  | some b =>
    rw [hb] at hv
    rw [r.get_some hx hb]
    simp only [r.sheap] at hv ⊢
    cases hf : f p.heap b with
    | error e => rw [hf] at hv; cases hv
    | ok w =>
      rw [hf] at hv
      cases hv
      simp only [gotStr_ok, hg]

theorem cstr_cstr (v : Str) : cstr (cstr v) = cstr v := by
  apply cstr_self
  unfold cstr
  intro h
  have := takeWhile_mem _ h
  simp at this

/-- One statement. -/
theorem R.step (r : R s p q) (what : Exc → Str) (dead : Str) {usable : Nat → Nat} {a : Nat} {o : Op} (hu : Uses p o) (ha : Fresh s a) (hs : Safe what dead usable p o) :
    ∃ q', R (step usable what dead s a o).1 (doc what dead p o).1 q' ∧ (Vital.Py.CB.step usable what dead s a o).2 = some (doc what dead p o).2 := by
  have hl := r.legal ha
  cases o with
  | new n =>
    have key : ∀ w : Str, ∃ q', R (newObj s (Cfg.newNamed s.c a w)).1 (p.make (emptyConfig p.heap w)).1 q' ∧
        (newObj s (Cfg.newNamed s.c a w)).2 = some (p.make (emptyConfig p.heap w)).2 := by
      intro w
      obtain ⟨h1, h2⟩ := Cfg.rel_exec r.rel r.ok hl (.newNamed w)
      have h3 := Cfg.ok_spec r.ok hl (.newNamed w)
      simp only [Cfg.exec, Cfg.spec] at h1 h2 h3
      refine ⟨(q.created (emptyConfig q.heap w).1 a).1, ?_, by simp [newObj, Prog.make, r.len]⟩
      unfold newObj
      rw [h2]
      simp only [Cfg.Prog.created] at h1 h3 ⊢
      have e : emptyConfig p.heap w = ((emptyConfig q.heap w).1, .ok q.heap.length) := by rw [r.heap]; rfl
      rw [e]
      exact r.made hl h1 h3
    simp only [CB.step, doc, CB.new]
    cases n with
    | none => exact key []
    | some w =>
      simp only [Option.getD_some]
      split
      · rename_i h; subst h; exact key []
      · exact key (cstr w)
  | subblock x k =>
    exact r.sub ha (hu x (by simp [Op.uses])) (.subblock (s.ptr x) (cstr k)) (fun h b => Config.subblock h b (cstr k))
      (fun _ _ _ h => Cfg.subblock_err h) (fun _ _ _ h => Cfg.subblock_ok h) rfl
  | subblockView x k =>
    refine r.sub ha (hu x (by simp [Op.uses])) (.subblockView (s.ptr x) (cstr k)) (fun h b => Config.subblockView h b (cstr k)) ?_ ?_ rfl
    · intro b hp e h
      unfold Config.subblockView at h
      split at h
      · cases h; rfl
      · cases h
    · intro b hp n h
      unfold Config.subblockView at h
      split at h
      · cases h
      · cases h; rfl
  | name x =>
    have hx := hu x (by simp [Op.uses])
    obtain ⟨b, hb⟩ := hs
    simp only [CB.step, doc, CB.name]
    obtain ⟨v, hv⟩ : ∃ v, p.ask what dead x Config.getName = .ok v := by
      unfold Prog.ask
      rw [hb]
      simp only
      have ht : q.table (s.ptr x) = some b := by rw [r.table hx, hb]
      have hlt := r.ok.lt ht
      unfold Config.getName
      rw [r.heap, List.getElem?_eq_getElem hlt]
      exact ⟨_, rfl⟩
    rw [r.string what dead hx Config.getName id (fun _ => rfl) (y := Cfg.getName s.c (s.ptr x)) rfl hv, hv]
    exact ⟨q, r.same rfl rfl (by simp [free, r.owed]), rfl⟩
  | getValue x k d =>
    have hx := hu x (by simp [Op.uses])
    obtain ⟨h1, h2⟩ := r.value what dead hx k d
    simp only [CB.step, doc, CB.getValue]
    rw [h1, h2]
    exact ⟨q, r, rfl⟩
  | getValueBool x k d =>
    have hx := hu x (by simp [Op.uses])
    cases d with
    | none =>
      simp only [CB.step, doc, CB.getValueBool]
      obtain ⟨h1, _⟩ := r.boolean what dead hx (fun h b => getValueAs castBool h b (cstr k)) (y := Cfg.getValueBool s.c (s.ptr x) (cstr k)) rfl
      rw [r.raising what dead hx (fun h b => getValueAs castBool h b (cstr k)) (y := Cfg.getValueBool s.c (s.ptr x) (cstr k)) rfl hs]
      exact ⟨q, r.same (by rw [h1]; rfl) rfl (by simp [free, r.owed]), rfl⟩
    | some d =>
      simp only [CB.step, doc, CB.getValueBool]
      obtain ⟨h1, _⟩ := r.boolean what dead hx (fun h b => getValueDef castBool h b (cstr k) d) (y := Cfg.getValueDefaultBool s.c (s.ptr x) (cstr k) d) rfl
      rw [r.raising what dead hx (fun h b => getValueDef castBool h b (cstr k) d) (y := Cfg.getValueDefaultBool s.c (s.ptr x) (cstr k) d) rfl hs]
      exact ⟨q, r.same (by rw [h1]; rfl) rfl (by simp [free, r.owed]), rfl⟩
  | getDescription x k =>
    have hx := hu x (by simp [Op.uses])
    obtain ⟨v, hv⟩ := hs
    simp only [CB.step, doc, CB.getDescription]
    rw [r.string what dead hx (fun h b => Config.getDescription h b (cstr k)) cstr cstr_cstr (y := Cfg.getDescription s.c (s.ptr x) (cstr k)) rfl hv, hv]
    exact ⟨q, r.same rfl rfl (by simp [free, r.owed]), rfl⟩
  | setValue x k v d =>
    have hx := hu x (by simp [Op.uses])
    cases d with
    | none => 
      obtain ⟨q', h1, h2⟩ := r.tell ha hx (.setValue (s.ptr x) (cstr k) (cstr v)) (fun h b => (Config.setValue h b (cstr k) (cstr v) []).1) rfl
      exact ⟨q', h1, by rw [show (doc what dead p (.setValue x k v none)).2 = .ok .none from h2]; rfl⟩
    | some d =>
      obtain ⟨q', h1, h2⟩ := r.tell ha hx (.setValueDescr (s.ptr x) (cstr k) (cstr v) (cstr d)) (fun h b => (Config.setValue h b (cstr k) (cstr v) (cstr d)).1) rfl
      exact ⟨q', h1, by rw [show (doc what dead p (.setValue x k v (some d))).2 = .ok .none from h2]; rfl⟩
  | unsetValue x k =>
    obtain ⟨q', h1, h2⟩ := r.tell ha (hu x (by simp [Op.uses])) (.unsetValue (s.ptr x) (cstr k)) (fun h b => (Config.unsetValue h b (cstr k)).1) rfl
    exact ⟨q', h1, by rw [show (doc what dead p (.unsetValue x k)).2 = .ok .none from h2]; rfl⟩
  | isReadOnly x k =>
    have hx := hu x (by simp [Op.uses])
    obtain ⟨h1, h2, _⟩ := r.boolean what dead hx (fun h b => Config.isReadOnly h b (cstr k)) (y := Cfg.isReadOnly s.c (s.ptr x) (cstr k)) rfl
    refine ⟨q, r.same h1 rfl r.owed, h2⟩
  | markReadOnly x k =>
    obtain ⟨q', h1, h2⟩ := r.tell ha (hu x (by simp [Op.uses])) (.markReadOnly (s.ptr x) (cstr k)) (fun h b => (Config.markReadOnly h b (cstr k)).1) rfl
    exact ⟨q', h1, by rw [show (doc what dead p (.markReadOnly x k)).2 = .ok .none from h2]; rfl⟩
  | merge x y =>
    have hx := hu x (by simp [Op.uses])
    have hy := hu y (by simp [Op.uses])
    have ht := r.table hy
    cases hb : p.blk y with
    | none =>
      obtain ⟨h1, _⟩ := Cfg.rel_exec r.rel r.ok hl (.mergeConfig (s.ptr x) (s.ptr y))
      simp only [Cfg.spec, ht, hb] at h1
      refine ⟨q, ?_, ?_⟩
      · simp only [CB.step, doc, CB.merge, hb]
        exact r.wrote h1 r.ok rfl (hp := p.heap) r.heap
      · simp only [CB.step, doc, CB.merge, hb]
    | some c =>
      obtain ⟨q', h1, h2⟩ := r.tell ha hx (.mergeConfig (s.ptr x) (s.ptr y)) (fun h b => (Config.mergeConfig h b c).1) (by simp only [Cfg.spec, ht, hb])
      refine ⟨q', ?_, ?_⟩
      · simp only [CB.step, doc, CB.merge, hb]; exact h1
      · simp only [CB.step, doc, CB.merge, hb]; rw [h2]
  | hasValue x k =>
    have hx := hu x (by simp [Op.uses])
    obtain ⟨h1, h2, _⟩ := r.boolean what dead hx (fun h b => Config.hasValue h b (cstr k)) (y := Cfg.hasValue s.c (s.ptr x) (cstr k)) rfl
    refine ⟨q, r.same h1 rfl r.owed, h2⟩
  | availableKeys x =>
    obtain ⟨h1, h2⟩ := r.keys what dead (hu x (by simp [Op.uses])) hs
    simp only [CB.step, doc, CB.availableKeys]
    rw [h1, h2]
    exact ⟨q, r, rfl⟩
  | asDict x =>
    have hx := hu x (by simp [Op.uses])
    obtain ⟨h1, h2⟩ := r.keys what dead hx hs
    simp only [CB.step, doc, CB.asDict]
    rw [show keyList usable s x = (s, some (docKeys what dead p x)) from Prod.ext h1 h2]
    simp only
    have hd := r.dictLoop what dead hx (docKeys what dead p x) []
    rw [show List.filter (fun k => decide (k ∉ ([] : List Str))) (firsts (docKeys what dead p x)) = firsts (docKeys what dead p x) from List.filter_eq_self.2 (by simp)] at hd
    simp only [List.map_nil, List.nil_append] at hd
    rw [hd]
    exact ⟨q, r, rfl⟩
  | collect x =>
    have hx := hu x (by simp [Op.uses])
    have ht := r.table hx
    obtain ⟨v, hv⟩ := hx
    have hlt : x < p.objs.length := (List.getElem?_eq_some_iff.1 hv).1
    have setcase : ∀ {α : Type} {l : List (Option α)} {w : Option α} {y : Nat}, (l.set x none)[y]? = some w → (y = x ∧ w = none) ∨ (y ≠ x ∧ l[y]? = some w) := by
      intro α l w y h
      by_cases hy : y = x
      · subst hy
        have hl : y < l.length := by have := (List.getElem?_eq_some_iff.1 h).1; simpa using this
        rw [List.getElem?_set_self hl] at h
        cases h; exact .inl ⟨rfl, rfl⟩
      · rw [List.getElem?_set_ne (fun e => hy e.symm)] at h; exact .inr ⟨hy, h⟩
    have setother : ∀ {α : Type} {l : List (Option α)} {w : Option α} {y : Nat}, y ≠ x → l[y]? = some w → (l.set x none)[y]? = some w := by
      intro α l w y hy h
      rw [List.getElem?_set_ne (fun e => hy e.symm)]; exact h
    have hself : (s.objs.set x none)[x]? = some none := List.getElem?_set_self (by rw [r.len]; exact hlt)
    have hptr : s.objs[x]? = some (some (s.ptr x)) := by
      have : ∃ cb, s.objs[x]? = some (some cb) := by
        cases v with
        | none => exact ⟨_, r.null x hv⟩
        | some b => obtain ⟨cb, e, _⟩ := r.live x b hv; exact ⟨cb, e⟩
      obtain ⟨cb, e⟩ := this
      unfold St.ptr; rw [e]; rfl
    simp only [CB.step, doc, CB.collect]
    split
    · rename_i h0
      refine ⟨q, ⟨r.rel, r.ok, r.heap, by simp [r.len], ?_, ?_, ?_, ?_, ?_, r.owed⟩, rfl⟩
      · intro y h
        rcases setcase h with ⟨_, h⟩ | ⟨hy, h⟩
        · cases h
        · exact setother hy (r.null y h)
      · intro y b h
        rcases setcase h with ⟨_, h⟩ | ⟨hy, h⟩
        · cases h
        · obtain ⟨cb, e1, e2⟩ := r.live y b h
          exact ⟨cb, setother hy e1, e2⟩
      · intro y h
        rcases setcase h with ⟨rfl, _⟩ | ⟨hy, h⟩
        · exact hself
        · exact setother hy (r.gone y h)
      · intro y z cb hy hz h0
        rcases setcase hy with ⟨_, h⟩ | ⟨_, hy⟩
        · cases h
        · rcases setcase hz with ⟨_, h⟩ | ⟨_, hz⟩
          · cases h
          · exact r.uniq y z cb hy hz h0
      · intro cb b hb
        obtain ⟨y, hy⟩ := r.dom cb b hb
        refine ⟨y, setother ?_ hy⟩
        rintro rfl
        rw [hptr, h0] at hy
        cases hy
        rw [r.ok.null] at hb; cases hb
    · rename_i h0
      obtain ⟨h1, _⟩ := Cfg.rel_exec r.rel r.ok hl (.destroy (s.ptr x))
      have h2 := Cfg.ok_spec r.ok hl (.destroy (s.ptr x))
      simp only [Cfg.exec, Cfg.spec] at h1 h2
      refine ⟨_, ⟨h1, h2, r.heap, by simp [r.len], ?_, ?_, ?_, ?_, ?_, r.owed⟩, rfl⟩
      · intro y h
        rcases setcase h with ⟨_, h⟩ | ⟨hy, h⟩
        · cases h
        · exact setother hy (r.null y h)
      · intro y b h
        rcases setcase h with ⟨_, h⟩ | ⟨hy, h⟩
        · cases h
        · obtain ⟨cb, e1, e2⟩ := r.live y b h
          refine ⟨cb, setother hy e1, ?_⟩
          simp only
          rw [if_neg]
          · exact e2
          · intro e
            exact hy (r.uniq y x cb e1 (by rw [hptr, e]) (by rw [e]; exact h0))
      · intro y h
        rcases setcase h with ⟨rfl, _⟩ | ⟨hy, h⟩
        · exact hself
        · exact setother hy (r.gone y h)
      · intro y z cb hy hz h0
        rcases setcase hy with ⟨_, h⟩ | ⟨_, hy⟩
        · cases h
        · rcases setcase hz with ⟨_, h⟩ | ⟨_, hz⟩
          · cases h
          · exact r.uniq y z cb hy hz h0
      · intro cb b hb
        simp only at hb
        split at hb
        · cases hb
        · rename_i hne
          obtain ⟨y, hy⟩ := r.dom cb b hb
          refine ⟨y, setother ?_ hy⟩
          rintro rfl
          rw [hptr] at hy
          cases hy
          exact hne rfl

theorem R.run (what : Exc → Str) (dead : Str) {usable : Nat → Nat} : ∀ (l : List (Nat × Op)) {s : St} {p : Prog} {q : Cfg.Prog}, R s p q → Legal what dead usable s p l →
    SafeRun what dead usable p l → (Vital.Py.CB.run usable what dead s l).2 = (docAll what dead p l).2.map some ∧ ∃ q', R (Vital.Py.CB.run usable what dead s l).1 (docAll what dead p l).1 q'
  | [], _, _, q, r, _, _ => ⟨rfl, q, r⟩
  | (a, o) :: l, s, p, q, r, hl, hs => by
    obtain ⟨q1, r1, e1⟩ := r.step what dead hl.1 hl.2.1 hs.1
    obtain ⟨e2, q2, r2⟩ := R.run what dead l r1 hl.2.2 hs.2
    simp only [CB.run, docAll, List.map_cons]
    exact ⟨by rw [e1, e2], q2, r2⟩

/-- What holds of C211, for any allocator: in runs made of safe statements all results are the documented ones, every string, list and
    error handle that the C side allocated is freed, and each object names its own block until it is collected (others are unaffected).
    Missing: the statements that are not safe. -/
theorem C211_partial (what : Exc → Str) (dead : Str) (usable : Nat → Nat) (l : List (Nat × Op)) (hl : Legal what dead usable St.init Prog.init l)
    (hs : SafeRun what dead usable Prog.init l) :
    (run usable what dead St.init l).2 = (docAll what dead Prog.init l).2.map some ∧ (run usable what dead St.init l).1.owed = 0 ∧
    (run usable what dead St.init l).1.c.heap = (docAll what dead Prog.init l).1.heap := by
  obtain ⟨h1, q', r⟩ := R.run what dead l R.init hl hs
  exact ⟨h1, r.owed, r.sheap⟩

/-! ### The statements that are not safe -/

theorem stringList_none {usable : Nat → Nat} : ∀ {ks : List Str}, stringList usable ks = none ↔ ¬ ∀ k ∈ ks, (cstr k).length + 1 ≤ usable k.length
  | [] => by simp [stringList]
  | k :: ks => by
    unfold stringList
    rw [List.forall_mem_cons]
    by_cases h : (cstr k).length + 1 ≤ usable k.length
    · rw [if_pos h, Option.map_eq_none_iff, stringList_none]
      exact ⟨fun h1 h2 => h1 h2.2, fun h1 h2 => h1 ⟨h, h2⟩⟩
    · rw [if_neg h]
      exact ⟨fun _ h2 => h h2.1, fun _ => rfl⟩

theorem R.string_none (r : R s p q) (what : Exc → Str) (dead : Str) {x : Nat} (hx : ∃ v, p.objs[x]? = some (some v)) (f : Heap → Nat → Except Exc Str) (g : Str → Str)
    {y : Cfg.St × Cfg.Res} (hy : y = match get s.c.cache (s.ptr x) with
      | .error _ => (s.c, .str none)
      | .ok sp => match f s.c.heap sp.tag with
        | .error _ => (s.c, .str none)
        | .ok v => (s.c, Cfg.newString (g v)))
    {t : Str} (hv : p.ask what dead x f = .error t) : gotStr s y = (s, none) := by
  subst hy
  unfold Prog.ask at hv
  cases hb : p.blk x with
  | none =>
    obtain ⟨e, he⟩ := r.get_none hx hb
    rw [he]
    rfl
  | some b =>
    rw [hb] at hv
    rw [r.get_some hx hb]
    simp only [r.sheap] at hv ⊢
    cases hf : f p.heap b with
    | ok w => rw [hf] at hv; cases hv
    | error e => rfl

theorem caught_isSome {usable : Nat → Nat} {t : Str} :
    (caught usable t).isSome ↔ (cstr (message (.stdException t))).length + 1 ≤ usable (cstr (message (.stdException t))).length := by
  unfold caught
  simp only
  split
  · simp_all
  · simp_all

theorem R.exact (r : R s p q) (what : Exc → Str) (dead : Str) {usable : Nat → Nat} {a : Nat} {o : Op} (hu : Uses p o) (ha : Fresh s a) :
    ∃ q', R (CB.step usable what dead s a o).1 (doc what dead p o).1 q' ∧ (CB.step usable what dead s a o).2 = real what dead usable p o := by
  have safe : Safe what dead usable p o → fault what dead usable p o = none →
      ∃ q', R (CB.step usable what dead s a o).1 (doc what dead p o).1 q' ∧ (CB.step usable what dead s a o).2 = real what dead usable p o := by
    intro h1 h2
    obtain ⟨q', h3, h4⟩ := r.step what dead hu ha h1
    exact ⟨q', h3, by rw [h4]; unfold real; rw [h2]; rfl⟩
  cases o with
  | name x =>
    have hx := hu x (by simp [Op.uses])
    cases hv : p.ask what dead x Config.getName with
    | ok v =>
      refine safe ?_ (by simp only [fault, hv])
      unfold Prog.ask at hv
      cases hb : p.blk x with
      | none => rw [hb] at hv; cases hv
      | some b => exact ⟨b, hb⟩
    | error t =>
      have e := r.string_none what dead hx Config.getName id (y := Cfg.getName s.c (s.ptr x)) rfl hv
      simp only [CB.step, doc, CB.name, real, fault, hv]
      rw [e]
      exact ⟨q, r, rfl⟩
  | getDescription x k =>
    have hx := hu x (by simp [Op.uses])
    cases hv : p.ask what dead x (fun h b => Config.getDescription h b (cstr k)) with
    | ok v => exact safe ⟨v, hv⟩ (by simp only [fault, hv])
    | error t =>
      have e := r.string_none what dead hx (fun h b => Config.getDescription h b (cstr k)) cstr (y := Cfg.getDescription s.c (s.ptr x) (cstr k)) rfl hv
      simp only [CB.step, doc, CB.getDescription, real, fault, hv]
      rw [e]
      exact ⟨q, r, rfl⟩
  | getValueBool x k d =>
    have hx := hu x (by simp [Op.uses])
    have key : ∀ (f : Heap → Nat → Except Exc Bool) (y : Cfg.St × Cfg.Res), (y = match get s.c.cache (s.ptr x) with
        | .error _ => (s.c, .bool false)
        | .ok sp => match f s.c.heap sp.tag with
          | .error _ => (s.c, .bool false)
          | .ok v => (s.c, .bool v)) → ∀ t, p.ask what dead x f = .error t → caught usable t = none →
        R (free { s with c := y.1, owed := s.owed + 1 }) p q ∧ withHandle usable (thrown what dead s (s.ptr x) f) y.2 = none := by
      intro f y hy t ht hc
      obtain ⟨h1, _, h3, _⟩ := r.boolean what dead hx f hy
      rw [h3, ht]
      refine ⟨r.same h1 rfl (by simp [free, r.owed]), ?_⟩
      unfold withHandle
      simp only [hc]
    cases d with
    | none =>
      cases hv : p.ask what dead x (fun h b => getValueAs castBool h b (cstr k)) with
      | ok v => exact safe (by intro t ht; rw [hv] at ht; cases ht) (by simp only [fault, hv])
      | error t =>
        by_cases hc : (cstr (message (.stdException t))).length + 1 ≤ usable (cstr (message (.stdException t))).length
        · refine safe ?_ (by simp only [fault, hv, if_pos hc])
          intro t' ht; rw [hv] at ht; cases ht; exact caught_isSome.2 hc
        · obtain ⟨h1, h2⟩ := key _ (Cfg.getValueBool s.c (s.ptr x) (cstr k)) rfl t hv
            (Option.not_isSome_iff_eq_none.1 (fun h => hc (caught_isSome.1 h)))
          refine ⟨q, h1, ?_⟩
          simp only [real, fault, hv, if_neg hc]
          exact h2
    | some d =>
      cases hv : p.ask what dead x (fun h b => getValueDef castBool h b (cstr k) d) with
      | ok v => exact safe (by intro t ht; rw [hv] at ht; cases ht) (by simp only [fault, hv])
      | error t =>
        by_cases hc : (cstr (message (.stdException t))).length + 1 ≤ usable (cstr (message (.stdException t))).length
        · refine safe ?_ (by simp only [fault, hv, if_pos hc])
          intro t' ht; rw [hv] at ht; cases ht; exact caught_isSome.2 hc
        · obtain ⟨h1, h2⟩ := key _ (Cfg.getValueDefaultBool s.c (s.ptr x) (cstr k) d) rfl t hv
            (Option.not_isSome_iff_eq_none.1 (fun h => hc (caught_isSome.1 h)))
          refine ⟨q, h1, ?_⟩
          simp only [real, fault, hv, if_neg hc]
          exact h2
  | availableKeys x =>
    have hx := hu x (by simp [Op.uses])
    cases hv : p.ask what dead x (fun h b => Config.availableValues h b) with
    | error t => exact safe (by intro ks h; rw [hv] at h; cases h) (by simp only [fault, hv])
    | ok ks =>
      by_cases hc : ∀ k ∈ ks, (cstr k).length + 1 ≤ usable k.length
      · refine safe ?_ (by simp only [fault, hv, if_pos hc])
        intro ks' h; rw [hv] at h; cases h
        exact Option.isSome_iff_ne_none.2 (fun h => stringList_none.1 h hc)
      · obtain ⟨e1, e2⟩ := r.keys_ub what dead hx hv (stringList_none.2 hc)
        simp only [CB.step, doc, CB.availableKeys, real, fault, hv, if_neg hc]
        rw [e1, e2]
        exact ⟨q, r, rfl⟩
  | asDict x =>
    have hx := hu x (by simp [Op.uses])
    cases hv : p.ask what dead x (fun h b => Config.availableValues h b) with
    | error t => exact safe (by intro ks h; rw [hv] at h; cases h) (by simp only [fault, hv])
    | ok ks =>
      by_cases hc : ∀ k ∈ ks, (cstr k).length + 1 ≤ usable k.length
      · refine safe ?_ (by simp only [fault, hv, if_pos hc])
        intro ks' h; rw [hv] at h; cases h
        exact Option.isSome_iff_ne_none.2 (fun h => stringList_none.1 h hc)
      · obtain ⟨e1, e2⟩ := r.keys_ub what dead hx hv (stringList_none.2 hc)
        simp only [CB.step, doc, CB.asDict, real, fault, hv, if_neg hc]
        rw [show keyList usable s x = (s, none) from Prod.ext e1 e2]
        exact ⟨q, r, rfl⟩
  | _ => exact safe trivial rfl

theorem R.exactRun (what : Exc → Str) (dead : Str) {usable : Nat → Nat} : ∀ (l : List (Nat × Op)) {s : St} {p : Prog} {q : Cfg.Prog}, R s p q → Legal what dead usable s p l →
    (CB.run usable what dead s l).2 = realAll what dead usable p l ∧ ∃ q', R (CB.run usable what dead s l).1 (docAll what dead p l).1 q'
  | [], _, _, q, r, _ => ⟨rfl, q, r⟩
  | (a, o) :: l, s, p, q, r, hl => by
    obtain ⟨q1, r1, e1⟩ := r.exact what dead hl.1 hl.2.1
    obtain ⟨e2, q2, r2⟩ := R.exactRun what dead l r1 hl.2.2
    simp only [CB.run, docAll, realAll]
    exact ⟨by rw [e1, e2], q2, r2⟩

/-- C212: the exact outcome of every Python program over config blocks, for every allocator: each statement has the documented effect on
    the blocks, and the documented result unless it runs into one of the faults listed in `fault`; nothing that the C side allocates leaks,
    also when an exception is raised; and the handles of the live objects name the blocks they should. -/
theorem C212_exact (what : Exc → Str) (dead : Str) (usable : Nat → Nat) (l : List (Nat × Op)) (hl : Legal what dead usable St.init Prog.init l) :
    (run usable what dead St.init l).2 = realAll what dead usable Prog.init l ∧ (run usable what dead St.init l).1.owed = 0 ∧
    (run usable what dead St.init l).1.c.heap = (docAll what dead Prog.init l).1.heap ∧
    ∀ x b, (docAll what dead Prog.init l).1.objs[x]? = some (some (some b)) →
      get (run usable what dead St.init l).1.c.cache ((run usable what dead St.init l).1.ptr x) = .ok ⟨(run usable what dead St.init l).1.ptr x, b⟩ := by
  obtain ⟨h1, q', r⟩ := R.exactRun what dead l R.init hl
  refine ⟨h1, r.owed, r.sheap, fun x b h => r.get_some ⟨_, h⟩ ?_⟩
  unfold Prog.blk; rw [h]; rfl

theorem fresh_init (a : Nat) (h : a ≠ 0) : Fresh St.init a := ⟨h, by intro x cb sp b hx; simp [St.init] at hx⟩

/-- C211 fails for every allocator: get_description of a key that has none raises ValueError where None is documented. -/
theorem C211_refuted (what : Exc → Str) (dead : Str) (usable : Nat → Nat) : ¬ C211_statement what dead usable := by
  intro h
  have hl : Legal what dead usable St.init Prog.init [(1, .new none), (2, .getDescription 0 (c!"k"))] := by
    refine ⟨(by intro x hx; cases hx), fresh_init 1 (by decide), ?_, ?_, trivial⟩
    · intro x hx
      simp [Op.uses] at hx
      subst hx
      exact ⟨some 0, rfl⟩
    · refine ⟨by decide, ?_⟩
      intro x cb sp b hx hg hk he
      have hb : b = 0 := by
        have : ([1] : List Nat)[b]? = some 2 := he
        cases b with
        | zero => rfl
        | succ n => simp at this
      subst hb
      have : ([1] : List Nat)[0]? = some 2 := he
      simp at this
  have h1 := (h _ hl).1
  rw [(C212_exact what dead usable _ hl).1] at h1
  revert h1
  simp only [realAll, docAll, List.map_cons, List.map_nil]
  intro h1
  injection h1 with _ h1
  injection h1 with h1 _
  have e : Prog.ask what dead (doc what dead Prog.init (.new none)).1 0 (fun h b => Config.getDescription h b (cstr (c!"k"))) =
      .error (what (.noSuch (c!"k"))) := rfl
  simp only [real, fault, doc] at h1 e
  rw [e] at h1
  simp [orNone] at h1

theorem glibc_short (n : Nat) : ¬ n + 1 ≤ glibc n ↔ 24 ≤ n ∧ n % 16 = 8 := by unfold glibc; omega

/-- C213: on glibc, listing the keys of a block (available_keys, as_dict) writes past the end of a heap block exactly when some key has
    a length of 24, 40, 56, ... characters. -/
theorem C213_keys (what : Exc → Str) (dead : Str) (p : Prog) (x : Nat) (ks : List Str) (hks : p.ask what dead x (fun h b => Config.availableValues h b) = .ok ks)
    (hn : ∀ k ∈ ks, nul ∉ k) :
    (real what dead glibc p (.availableKeys x) = none ↔ ∃ k ∈ ks, 24 ≤ k.length ∧ k.length % 16 = 8) ∧
    (real what dead glibc p (.asDict x) = none ↔ ∃ k ∈ ks, 24 ≤ k.length ∧ k.length % 16 = 8) := by
  have key : (∀ k ∈ ks, (cstr k).length + 1 ≤ glibc k.length) ↔ ¬ ∃ k ∈ ks, 24 ≤ k.length ∧ k.length % 16 = 8 := by
    constructor
    · rintro h ⟨k, hk, h2⟩
      have := h k hk
      rw [cstr_self (hn k hk)] at this
      exact (glibc_short _).2 h2 this
    · intro h k hk
      rw [cstr_self (hn k hk)]
      exact Classical.byContradiction (fun h2 => h ⟨k, hk, (glibc_short _).1 h2⟩)
  constructor
  all_goals
    simp only [real, fault, hks]
    by_cases hc : ∀ k ∈ ks, (cstr k).length + 1 ≤ glibc k.length
    · rw [if_pos hc]
      exact ⟨(by intro h; cases h), fun h => absurd h (key.1 hc)⟩
    · rw [if_neg hc]
      exact ⟨fun _ => Classical.byContradiction (fun h => hc (key.2 h)), fun _ => rfl⟩

/-! ### Concrete cases -/

/-- A sufficient check of `Legal`: each address is new. -/
def legalCheck (usable : Nat → Nat) (what : Exc → Str) (dead : Str) : St → Prog → List (Nat × Op) → Bool
  | _, _, [] => true
  | s, p, (a, o) :: l => (o.uses.all fun x => match p.objs[x]? with | some (some _) => true | _ => false) && a != 0 && !s.c.addr.contains a &&
      legalCheck usable what dead (CB.step usable what dead s a o).1 (doc what dead p o).1 l

theorem legal_of_check {usable : Nat → Nat} {what : Exc → Str} {dead : Str} : ∀ {l : List (Nat × Op)} {s : St} {p : Prog},
    legalCheck usable what dead s p l = true → Legal what dead usable s p l
  | [], _, _, _ => trivial
  | (a, o) :: l, s, p, h => by
    unfold legalCheck at h
    simp only [Bool.and_eq_true, List.all_eq_true] at h
    obtain ⟨⟨⟨h1, h2⟩, h3⟩, h4⟩ := h
    refine ⟨?_, ⟨by simpa using h2, ?_⟩, legal_of_check h4⟩
    · intro x hx
      have := h1 x hx
      split at this
      · rename_i v e; exact ⟨v, e⟩
      · cases this
    · intro x cb sp b _ _ _ he
      have : a ∈ s.c.addr := List.mem_iff_getElem?.2 ⟨b, he⟩
      simp [this] at h3

def exampleOps : List (Nat × Op) :=
  [(1, .new none), (2, .setValue 0 (c!"a:b") (c!"yes") (some (c!"d"))), (3, .subblockView 0 (c!"a")), (4, .getValue 1 (c!"b") none),
   (5, .getDescription 1 (c!"b")), (6, .collect 0), (7, .setValue 1 (c!"e") (c!"5") none), (8, .asDict 1), (9, .getValueBool 1 (c!"b") none),
   (10, .getValueBool 1 (c!"e") none), (11, .getDescription 1 (c!"zz")), (12, .getValue 1 (c!"zz") (some (c!"?")))]

example : Legal (fun _ => c!"bad") [] glibc St.init Prog.init exampleOps := legal_of_check (by decide +kernel)

example : realAll (fun _ => c!"bad") [] glibc Prog.init exampleOps =
    [some (.ok (.obj 0)), some (.ok .none), some (.ok (.obj 1)), some (.ok (.str (c!"yes"))), some (.ok (.str (c!"d"))), some (.ok .none), some (.ok .none),
     some (.ok (.dict [(c!"b", some (c!"yes")), (c!"e", some (c!"5"))])), some (.ok (.bool true)),
     some (.error (.noSuchValue (c!"Caught exception in C interface: bad"))), some (.error .nullPointer), some (.ok (.str (c!"?")))] := by decide +kernel

/-- A run that `C211_partial` covers. -/
example : SafeRun (fun _ => c!"bad") [] glibc Prog.init (exampleOps.take 10) := by
  refine ⟨trivial, trivial, trivial, trivial, ⟨c!"d", by decide +kernel⟩, trivial, trivial, ?_, ?_, ?_, trivial⟩
  · intro ks h
    have e : (Except.ok [c!"b", c!"e"] : Except Str (List Str)) = Except.ok ks := by rw [← h]; decide +kernel
    cases e
    decide +kernel
  · intro t h
    have e : (Except.ok true : Except Str Bool) = Except.error t := by rw [← h]; decide +kernel
    cases e
  · intro t h
    have e : (Except.error (c!"bad") : Except Str Bool) = Except.error t := by rw [← h]; decide +kernel
    cases e
    decide +kernel

/-- A key of 24 characters. -/
example : realAll (fun _ => c!"bad") [] glibc Prog.init
    [(1, .new none), (2, .setValue 0 (c!"abcdefghijklmnopqrstuvwx") (c!"1") none), (3, .availableKeys 0)] =
    [some (.ok (.obj 0)), some (.ok .none), none] := by decide +kernel

end Vital.Py.CB
