import Verif.Py.Algorithm
import Verif.Basic.Decimal
/- Proofs of C214 - C216. -/
namespace Vital.Py.Alg
open Vital Vital.Config Vital.CApi Vital.Algo

variable {δ : Type}

/-- The Python side, the documented program and the C++ program of the C interface belong together. -/
structure R (L : Lib δ) (s : St δ) (p : Prog δ) (t : CApi.Alg.Prog δ) : Prop where
  rel : CApi.Alg.Rel L s.c t
  alg : p.alg = t.alg
  cfgs : p.cfgs = t.cfgs
  objs : s.objs = p.objs
  len : s.cells.length = p.vars.length
  cell : ∀ (x : Nat) (o : Obj), at? s.objs x = some o → o.cell < s.cells.length
  null : ∀ (x : Nat) (o : Obj), at? s.objs x = some o → p.target o = none → s.handle o = 0
  live : ∀ (x : Nat) (o : Obj) (k : Nat), at? s.objs x = some o → p.target o = some k → t.live (s.handle o) = some (o.cls, k)
  uniq : ∀ (x y : Nat) (o o' : Obj), at? s.objs x = some o → at? s.objs y = some o' → s.handle o = s.handle o' → s.handle o ≠ 0 → o.cell = o'.cell
  dom : ∀ (h : Nat) (v : Nat × Nat), t.live h = some v → ∃ (x : Nat) (o : Obj), at? s.objs x = some o ∧ s.handle o = h
  par : ∀ (x y : Nat) (o : Obj), at? s.objs x = some o → o.parent = some y → y < x ∧ ∃ o', at? s.objs y = some o' ∧ o'.cell = o.cell
  root : ∀ (x y : Nat) (o o' : Obj), at? s.objs x = some o → at? s.objs y = some o' → o.parent = none → o'.parent = none → o.cell = o'.cell → x = y
  cls : ∀ (x y : Nat) (o o' : Obj), at? s.objs x = some o → at? s.objs y = some o' → o.cell = o'.cell → o.cls = o'.cls
  name : ∀ (x : Nat) (o : Obj), at? s.objs x = some o → o.name ≠ []

theorem at_nil (α : Type) (x : Nat) : at? ([] : List (Option α)) x = none := by simp [at?]

theorem R.init (L : Lib δ) : R L (St.init : St δ) Prog.init CApi.Alg.Prog.init := by
  refine ⟨CApi.Alg.rel_init L, rfl, rfl, rfl, rfl, ?_, ?_, ?_, ?_, ?_, ?_, ?_, ?_, ?_⟩
  · intro x o h; simp [St.init, at?] at h
  · intro x o h; simp [St.init, at?] at h
  · intro x o k h; simp [St.init, at?] at h
  · intro x y o o' h; simp [St.init, at?] at h
  · intro h v hv; simp [CApi.Alg.Prog.init] at hv
  · intro x y o h; simp [St.init, at?] at h
  · intro x y o o' h; simp [St.init, at?] at h
  · intro x y o o' h; simp [St.init, at?] at h
  · intro x o h; simp [St.init, at?] at h

theorem at_lt {α : Type} {l : List (Option α)} {x : Nat} {o : α} (h : at? l x = some o) : x < l.length := by
  unfold at? at h
  by_cases hx : x < l.length
  · exact hx
  · rw [List.getElem?_eq_none (by omega)] at h; simp at h

theorem at_append {α : Type} {l : List (Option α)} {v : α} {x : Nat} {o : α} (h : at? (l ++ [some v]) x = some o) : at? l x = some o ∨ (x = l.length ∧ o = v) := by
  unfold at? at *
  by_cases hx : x < l.length
  · rw [List.getElem?_append_left hx] at h; exact .inl h
  · rw [List.getElem?_append_right (by omega)] at h
    by_cases e : x - l.length = 0
    · rw [e] at h
      simp at h
      exact .inr ⟨by omega, h.symm⟩
    · rw [List.getElem?_eq_none (by simp; omega)] at h
      simp at h

theorem at_old {α : Type} {l : List (Option α)} {v : Option α} {x : Nat} {o : α} (h : at? l x = some o) : at? (l ++ [v]) x = some o := by
  have hx := at_lt h
  unfold at? at *
  rw [List.getElem?_append_left hx]; exact h

theorem at_last {α : Type} {l : List (Option α)} {v : Option α} : at? (l ++ [v]) l.length = v := by simp [at?]

theorem at_set {α : Type} {l : List (Option α)} {x y : Nat} {v : Option α} {o : α} (h : at? (l.set x v) y = some o) : (y = x ∧ v = some o) ∨ (y ≠ x ∧ at? l y = some o) := by
  have hl : y < l.length := by have := at_lt h; simpa using this
  unfold at? at *
  by_cases hy : y = x
  · subst hy
    rw [List.getElem?_set_self hl] at h
    exact .inl ⟨rfl, h⟩
  · rw [List.getElem?_set_ne (fun e => hy e.symm)] at h
    exact .inr ⟨hy, h⟩

theorem at_set_ne {α : Type} {l : List (Option α)} {x y : Nat} {v : Option α} (h : y ≠ x) : at? (l.set x v) y = at? l y := by
  unfold at?
  rw [List.getElem?_set_ne (fun e => h e.symm)]

theorem at_set_self {α : Type} {l : List (Option α)} {x : Nat} {v : Option α} (h : x < l.length) : at? (l.set x v) x = v := by
  unfold at?
  rw [List.getElem?_set_self h]; rfl

variable {L : Lib δ} {s : St δ} {p : Prog δ} {t : CApi.Alg.Prog δ}

theorem R.legal (r : R L s p t) {a : Nat} (h : Fresh s a) : a ≠ 0 ∧ t.live a = none := by
  refine ⟨h.1, ?_⟩
  cases e : t.live a with
  | none => rfl
  | some v =>
    obtain ⟨x, o, h1, h2⟩ := r.dom a v e
    exact absurd h2 (h.2 x o h1)

theorem R.named (r : R L s p t) {x : Nat} {o : Obj} (hx : at? s.objs x = some o) :
    (if s.handle o = 0 then some none else (t.named o.cls (s.handle o)).map some) = some (p.target o) := by
  cases ht : p.target o with
  | none => rw [if_pos (r.null x o hx ht)]
  | some k =>
    have hl := r.live x o k hx ht
    have h0 : s.handle o ≠ 0 := by
      intro e; rw [e, r.rel.null] at hl; cases hl
    rw [if_neg h0]
    simp [CApi.Alg.Prog.named, hl]

theorem R.nonzero (r : R L s p t) {x : Nat} {o : Obj} (hx : at? s.objs x = some o) {k : Nat} (ht : p.target o = some k) : s.handle o ≠ 0 := by
  intro e
  have hl := r.live x o k hx ht
  rw [e, r.rel.null] at hl; cases hl

theorem R.object (r : R L s p t) {x : Nat} {o : Obj} (hx : at? s.objs x = some o) : CApi.Alg.object s.c o.cls (s.handle o) = .ok (p.target o) := by
  obtain ⟨h1, h2, h3⟩ := CApi.Alg.object_named r.rel o.cls (s.handle o)
  cases ht : p.target o with
  | none => exact h1 (r.null x o hx ht)
  | some k => exact h3 (r.nonzero hx ht) k (by simp [CApi.Alg.Prog.named, r.live x o k hx ht])

theorem R.block (r : R L s p t) (cb : Nat) : t.block cb = p.block cb := by
  unfold CApi.Alg.Prog.block Prog.block; rw [r.cfgs]
  cases CApi.get t.cfgs cb <;> rfl

/-- Only the C++ world changes. -/
theorem R.world (r : R L s p t) {c' : CApi.Alg.St δ} {g : Algo.St δ} {k : Cache} (h : CApi.Alg.Rel L c' { t with alg := g, cfgs := k }) :
    R L { s with c := c' } { p with alg := g, cfgs := k } { t with alg := g, cfgs := k } :=
  ⟨h, rfl, rfl, r.objs, r.len, r.cell, r.null, r.live, r.uniq, r.dom, r.par, r.root, r.cls, r.name⟩

theorem R.alg' (r : R L s p t) {c' : CApi.Alg.St δ} {g : Algo.St δ} (h : CApi.Alg.Rel L c' { t with alg := g }) :
    R L { s with c := c' } { p with alg := g } { t with alg := g } :=
  ⟨h, rfl, r.cfgs, r.objs, r.len, r.cell, r.null, r.live, r.uniq, r.dom, r.par, r.root, r.cls, r.name⟩

theorem R.same (r : R L s p t) {c' : CApi.Alg.St δ} (h : CApi.Alg.Rel L c' t) : R L { s with c := c' } p t :=
  ⟨h, r.alg, r.cfgs, r.objs, r.len, r.cell, r.null, r.live, r.uniq, r.dom, r.par, r.root, r.cls, r.name⟩

theorem R.target_lt (r : R L s p t) {x : Nat} {o : Obj} (hx : at? s.objs x = some o) (v : Option Nat) (h : Nat) (g : Algo.St δ) (c' : CApi.Alg.St δ) (l l' : List (Option Obj)) :
    (⟨g, p.cfgs, p.vars ++ [v], l⟩ : Prog δ).target o = p.target o ∧ (⟨c', s.cells ++ [h], l'⟩ : St δ).handle o = s.handle o := by
  have hc := r.cell x o hx
  unfold Prog.target St.handle
  simp only
  rw [List.getElem?_append_left hc, List.getElem?_append_left (by rw [← r.len]; exact hc)]
  exact ⟨rfl, rfl⟩

/-- A new object with a new cell. -/
theorem R.add (r : R L s p t) {c' : CApi.Alg.St δ} {t' : CApi.Alg.Prog δ} {g : Algo.St δ} (c h : Nat) (v : Option Nat) (n : Str) (hn : n ≠ [])
    (hr : CApi.Alg.Rel L c' t') (hg : t'.alg = g) (hc : t'.cfgs = p.cfgs)
    (hv : (v = none ∧ h = 0 ∧ t'.live = t.live) ∨ (∃ m, v = some m ∧ t.live h = none ∧ t'.live = CApi.Alg.put t.live h (some (c, m)))) :
    R L ⟨c', s.cells ++ [h], s.objs ++ [some ⟨c, s.cells.length, none, n⟩]⟩ ⟨g, p.cfgs, p.vars ++ [v], p.objs ++ [some ⟨c, p.vars.length, none, n⟩]⟩ t' := by
  have old : ∀ {x : Nat} {o : Obj}, at? s.objs x = some o →
      (⟨g, p.cfgs, p.vars ++ [v], p.objs ++ [some ⟨c, p.vars.length, none, n⟩]⟩ : Prog δ).target o = p.target o ∧
      (⟨c', s.cells ++ [h], s.objs ++ [some ⟨c, s.cells.length, none, n⟩]⟩ : St δ).handle o = s.handle o := by
    intro x o hx
    exact r.target_lt hx v h g c' _ _
  have newh : ∀ q : Option Nat, (⟨c', s.cells ++ [h], s.objs ++ [some ⟨c, s.cells.length, none, n⟩]⟩ : St δ).handle ⟨c, s.cells.length, q, n⟩ = h := by
    intro q; simp [St.handle]
  have newt : ∀ q : Option Nat, (⟨g, p.cfgs, p.vars ++ [v], p.objs ++ [some ⟨c, p.vars.length, none, n⟩]⟩ : Prog δ).target ⟨c, s.cells.length, q, n⟩ = v := by
    intro q; simp [Prog.target, r.len]
  have hother : ∀ {x : Nat} {o : Obj}, at? s.objs x = some o → s.handle o = h → h ≠ 0 → False := by
    intro x o hx hh h0
    rcases hv with ⟨_, e, _⟩ | ⟨m, _, e, _⟩
    · exact h0 e
    · cases ht : p.target o with
      | none => exact h0 (by rw [← hh]; exact r.null x o hx ht)
      | some k => have := r.live x o k hx ht; rw [hh, e] at this; cases this
  refine ⟨hr, hg.symm, hc.symm, by simp only [r.objs, r.len], by simp [r.len], ?_, ?_, ?_, ?_, ?_, ?_, ?_, ?_, ?_⟩
  · intro x o hx
    rcases at_append hx with hx | ⟨_, rfl⟩
    · have := r.cell x o hx; simp; omega
    · simp
  · intro x o hx ht
    rcases at_append hx with hx | ⟨_, rfl⟩
    · rw [(old hx).1] at ht; rw [(old hx).2]; exact r.null x o hx ht
    · rw [newt] at ht
      rw [newh]
      rcases hv with ⟨_, e, _⟩ | ⟨m, e, _⟩
      · exact e
      · rw [e] at ht; cases ht
  · intro x o k hx ht
    rcases at_append hx with hx | ⟨_, rfl⟩
    · rw [(old hx).1] at ht; rw [(old hx).2]
      have hl := r.live x o k hx ht
      rcases hv with ⟨_, _, e⟩ | ⟨m, _, e1, e⟩
      · rw [e]; exact hl
      · rw [e]
        unfold CApi.Alg.put
        rw [if_neg (by intro e2; rw [e2, e1] at hl; cases hl)]
        exact hl
    · rw [newt] at ht
      rw [newh]
      rcases hv with ⟨e, _⟩ | ⟨m, e, e1, e2⟩
      · rw [e] at ht; cases ht
      · rw [e] at ht; cases ht
        rw [e2]; simp [CApi.Alg.put]
  · intro x y o o' hx hy hh h0
    rcases at_append hx with hx | ⟨_, rfl⟩
    · rw [(old hx).2] at hh h0
      rcases at_append hy with hy | ⟨_, rfl⟩
      · rw [(old hy).2] at hh; exact r.uniq x y o o' hx hy hh h0
      · rw [newh] at hh; exact (hother hx hh (by rw [← hh]; exact h0)).elim
    · rw [newh] at hh h0
      rcases at_append hy with hy | ⟨_, rfl⟩
      · rw [(old hy).2] at hh; exact (hother hy hh.symm h0).elim
      · rfl
  · intro z w hz
    have fromOld : t.live z = some w → ∃ (x : Nat) (o : Obj), at? (s.objs ++ [some ⟨c, s.cells.length, none, n⟩]) x = some o ∧
        (⟨c', s.cells ++ [h], s.objs ++ [some ⟨c, s.cells.length, none, n⟩]⟩ : St δ).handle o = z := by
      intro hz
      obtain ⟨x, o, h1, h2⟩ := r.dom z w hz
      exact ⟨x, o, at_old h1, by rw [(old h1).2]; exact h2⟩
    rcases hv with ⟨_, _, e⟩ | ⟨m, _, _, e⟩
    · rw [e] at hz; exact fromOld hz
    · rw [e] at hz
      unfold CApi.Alg.put at hz
      split at hz
      · rename_i e2
        exact ⟨s.objs.length, _, at_last, by rw [newh]; exact e2.symm⟩
      · exact fromOld hz
  · intro x y o hx hp
    rcases at_append hx with hx | ⟨_, rfl⟩
    · obtain ⟨h1, o', h2, h3⟩ := r.par x y o hx hp
      exact ⟨h1, o', at_old h2, h3⟩
    · cases hp
  · intro x y o o' hx hy hp hp' hc
    rcases at_append hx with hx | ⟨ex, rfl⟩
    · rcases at_append hy with hy | ⟨_, rfl⟩
      · exact r.root x y o o' hx hy hp hp' hc
      · have := r.cell x o hx; simp at hc; omega
    · rcases at_append hy with hy | ⟨ey, rfl⟩
      · have := r.cell y o' hy; simp at hc; omega
      · rw [ex, ey]
  · intro x y o o' hx hy hc
    rcases at_append hx with hx | ⟨_, rfl⟩
    · rcases at_append hy with hy | ⟨_, rfl⟩
      · exact r.cls x y o o' hx hy hc
      · have := r.cell x o hx; simp at hc; omega
    · rcases at_append hy with hy | ⟨_, rfl⟩
      · have := r.cell y o' hy; simp at hc; omega
      · rfl
  · intro x o hx
    rcases at_append hx with hx | ⟨_, rfl⟩
    · exact r.name x o hx
    · exact hn

theorem nameOr_ne {n : Option Str} {old : Str} (h : old ≠ []) : nameOr n old ≠ [] := by
  unfold nameOr
  split
  · exact h
  · split
    · exact h
    · assumption

/-- A shallow copy. -/
theorem R.copy (r : R L s p t) {x : Nat} {o : Obj} (hx : at? s.objs x = some o) (n : Str) (hn : n ≠ []) :
    R L { s with objs := s.objs ++ [some ⟨o.cls, o.cell, some x, n⟩] } { p with objs := p.objs ++ [some ⟨o.cls, o.cell, some x, n⟩] } t := by
  have key : ∀ {y : Nat} {q : Obj}, at? (s.objs ++ [some ⟨o.cls, o.cell, some x, n⟩]) y = some q →
      ∃ (y' : Nat) (q' : Obj), at? s.objs y' = some q' ∧ q'.cell = q.cell ∧ q'.cls = q.cls ∧ s.handle q' = s.handle q ∧ p.target q' = p.target q := by
    intro y q hy
    rcases at_append hy with hy | ⟨_, rfl⟩
    · exact ⟨y, q, hy, rfl, rfl, rfl, rfl⟩
    · exact ⟨x, o, hx, rfl, rfl, rfl, rfl⟩
  refine ⟨r.rel, r.alg, r.cfgs, by simp only [r.objs], r.len, ?_, ?_, ?_, ?_, ?_, ?_, ?_, ?_, ?_⟩
  · intro y q hy
    obtain ⟨y', q', h1, h2, _⟩ := key hy
    rw [← h2]; exact r.cell y' q' h1
  · intro y q hy ht
    obtain ⟨y', q', h1, h2, h3, h4, h5⟩ := key hy
    exact h4.symm.trans (r.null y' q' h1 (h5.trans ht))
  · intro y q k hy ht
    obtain ⟨y', q', h1, h2, h3, h4, h5⟩ := key hy
    have := r.live y' q' k h1 (h5.trans ht)
    rw [h4, h3] at this
    exact this
  · intro y z q w hy hz hh h0
    obtain ⟨y', q', h1, h2, h3, h4, h5⟩ := key hy
    obtain ⟨z', w', g1, g2, g3, g4, g5⟩ := key hz
    rw [← h2, ← g2]
    exact r.uniq y' z' q' w' h1 g1 (h4.trans (hh.trans g4.symm)) (by rw [h4]; exact h0)
  · intro h v hv
    obtain ⟨y, q, h1, h2⟩ := r.dom h v hv
    exact ⟨y, q, at_old h1, h2⟩
  · intro y z q hy hp
    rcases at_append hy with hy | ⟨ey, rfl⟩
    · obtain ⟨h1, o', h2, h3⟩ := r.par y z q hy hp
      exact ⟨h1, o', at_old h2, h3⟩
    · cases hp
      exact ⟨by rw [ey]; exact at_lt hx, o, at_old hx, rfl⟩
  · intro y z q w hy hz hp hp' hc
    rcases at_append hy with hy | ⟨_, rfl⟩
    · rcases at_append hz with hz | ⟨_, rfl⟩
      · exact r.root y z q w hy hz hp hp' hc
      · cases hp'
    · cases hp
  · intro y z q w hy hz hc
    obtain ⟨y', q', h1, h2, h3, _⟩ := key hy
    obtain ⟨z', w', g1, g2, g3, _⟩ := key hz
    rw [← h3, ← g3]
    exact r.cls y' z' q' w' h1 g1 (by rw [h2, g2]; exact hc)
  · intro y q hy
    rcases at_append hy with hy | ⟨_, rfl⟩
    · exact r.name y q hy
    · exact hn

/-- A new name. -/
theorem R.rename (r : R L s p t) {x : Nat} {o : Obj} (hx : at? s.objs x = some o) (n : Str) (hn : n ≠ []) :
    R L { s with objs := s.objs.set x (some { o with name := n }) } { p with objs := p.objs.set x (some { o with name := n }) } t := by
  have key : ∀ {y : Nat} {q : Obj}, at? (s.objs.set x (some { o with name := n })) y = some q →
      ∃ q' : Obj, at? s.objs y = some q' ∧ q'.cell = q.cell ∧ q'.cls = q.cls ∧ q'.parent = q.parent ∧ s.handle q' = s.handle q ∧ p.target q' = p.target q := by
    intro y q hy
    rcases at_set hy with ⟨rfl, h⟩ | ⟨_, h⟩
    · cases h; exact ⟨o, hx, rfl, rfl, rfl, rfl, rfl⟩
    · exact ⟨q, h, rfl, rfl, rfl, rfl, rfl⟩
  have back : ∀ {y : Nat} {q : Obj}, at? s.objs y = some q → ∃ q' : Obj, at? (s.objs.set x (some { o with name := n })) y = some q' ∧ q'.cell = q.cell ∧ s.handle q' = s.handle q := by
    intro y q hy
    by_cases e : y = x
    · subst e
      rw [hx] at hy; cases hy
      exact ⟨_, at_set_self (at_lt hx), rfl, rfl⟩
    · exact ⟨q, by rw [at_set_ne e]; exact hy, rfl, rfl⟩
  refine ⟨r.rel, r.alg, r.cfgs, by simp only [r.objs], r.len, ?_, ?_, ?_, ?_, ?_, ?_, ?_, ?_, ?_⟩
  · intro y q hy
    obtain ⟨q', h1, h2, _⟩ := key hy
    rw [← h2]; exact r.cell y q' h1
  · intro y q hy ht
    obtain ⟨q', h1, h2, h3, _, h4, h5⟩ := key hy
    exact h4.symm.trans (r.null y q' h1 (h5.trans ht))
  · intro y q k hy ht
    obtain ⟨q', h1, h2, h3, _, h4, h5⟩ := key hy
    have := r.live y q' k h1 (h5.trans ht)
    rw [h4, h3] at this
    exact this
  · intro y z q w hy hz hh h0
    obtain ⟨q', h1, h2, h3, _, h4, h5⟩ := key hy
    obtain ⟨w', g1, g2, g3, _, g4, g5⟩ := key hz
    rw [← h2, ← g2]
    exact r.uniq y z q' w' h1 g1 (h4.trans (hh.trans g4.symm)) (by rw [h4]; exact h0)
  · intro h v hv
    obtain ⟨y, q, h1, h2⟩ := r.dom h v hv
    obtain ⟨q', g1, _, g2⟩ := back h1
    exact ⟨y, q', g1, g2.trans h2⟩
  · intro y z q hy hp
    obtain ⟨q', h1, h2, h3, h4, _⟩ := key hy
    obtain ⟨g1, o', g2, g3⟩ := r.par y z q' h1 (h4.trans hp)
    obtain ⟨o'', k1, k2, _⟩ := back g2
    exact ⟨g1, o'', k1, by rw [k2, g3, h2]⟩
  · intro y z q w hy hz hp hp' hc
    obtain ⟨q', h1, h2, _, h3, _⟩ := key hy
    obtain ⟨w', g1, g2, _, g3, _⟩ := key hz
    exact r.root y z q' w' h1 g1 (h3.trans hp) (g3.trans hp') (by rw [h2, g2]; exact hc)
  · intro y z q w hy hz hc
    obtain ⟨q', h1, h2, h3, _⟩ := key hy
    obtain ⟨w', g1, g2, g3, _⟩ := key hz
    rw [← h3, ← g3]
    exact r.cls y z q' w' h1 g1 (by rw [h2, g2]; exact hc)
  · intro y q hy
    rcases at_set hy with ⟨_, h⟩ | ⟨_, h⟩
    · cases h; exact hn
    · exact r.name y q h

/-- When an original has no copies left, nothing else uses its cell. -/
theorem R.alone (r : R L s p t) {x : Nat} {o : Obj} (hx : at? s.objs x = some o) (hp : o.parent = none)
    (hno : ∀ (y : Nat) (q : Obj), at? s.objs y = some q → q.parent ≠ some x) : ∀ (n y : Nat) (q : Obj), y ≤ n → at? s.objs y = some q → q.cell = o.cell → y = x := by
  intro n
  induction n with
  | zero =>
    intro y q hy hq hc
    cases hpar : q.parent with
    | none => exact r.root y x q o hq hx hpar hp hc
    | some z => have := (r.par y z q hq hpar).1; omega
  | succ n ih =>
    intro y q hy hq hc
    cases hpar : q.parent with
    | none => exact r.root y x q o hq hx hpar hp hc
    | some z =>
      obtain ⟨h1, q', h2, h3⟩ := r.par y z q hq hpar
      have := ih z q' (by omega) h2 (by rw [h3, hc])
      subst this
      exact absurd hpar (hno y q hq)

/-- An object goes away; its handle, if it is an original, is destroyed. -/
theorem R.drop (r : R L s p t) {x : Nat} {o : Obj} (hx : at? s.objs x = some o) (hno : ∀ (y : Nat) (q : Obj), at? s.objs y = some q → q.parent ≠ some x)
    {c' : CApi.Alg.St δ} {t' : CApi.Alg.Prog δ} (hr : CApi.Alg.Rel L c' t') (ha : t'.alg = t.alg) (hc : t'.cfgs = t.cfgs)
    (hl : (t'.live = t.live ∧ ∀ v, t.live (s.handle o) = some v → o.parent ≠ none) ∨
      (o.parent = none ∧ s.handle o ≠ 0 ∧ t'.live = CApi.Alg.put t.live (s.handle o) none)) :
    R L { s with c := c', objs := s.objs.set x none } { p with objs := p.objs.set x none } t' := by
  have key : ∀ {y : Nat} {q : Obj}, at? (s.objs.set x none) y = some q → y ≠ x ∧ at? s.objs y = some q := by
    intro y q hy
    rcases at_set hy with ⟨_, h⟩ | h
    · cases h
    · exact h
  refine ⟨hr, by rw [ha]; exact r.alg, by rw [hc]; exact r.cfgs, by simp only [r.objs], r.len, ?_, ?_, ?_, ?_, ?_, ?_, ?_, ?_, ?_⟩
  · intro y q hy; exact r.cell y q (key hy).2
  · intro y q hy ht; exact r.null y q (key hy).2 ht
  · intro y q k hy ht
    obtain ⟨hne, hy⟩ := key hy
    have h1 := r.live y q k hy ht
    rcases hl with ⟨e, _⟩ | ⟨hp, h0, e⟩
    · rw [e]; exact h1
    · rw [e]
      unfold CApi.Alg.put
      rw [if_neg]
      · exact h1
      · intro e2
        have e2 : s.handle q = s.handle o := e2
        exact hne (r.alone hx hp hno y y q (Nat.le_refl y) hy (r.uniq y x q o hy hx e2 (by rw [e2]; exact h0)))
  · intro y z q w hy hz hh h0; exact r.uniq y z q w (key hy).2 (key hz).2 hh h0
  · intro h v hv
    rcases hl with ⟨e, hpar⟩ | ⟨hp, h0, e⟩
    · rw [e] at hv
      obtain ⟨y, q, h1, h2⟩ := r.dom h v hv
      by_cases ey : y = x
      · subst ey
        rw [hx] at h1; cases h1
        cases hpp : o.parent with
        | none => exact absurd hpp (hpar v (by rw [h2]; exact hv))
        | some z =>
          obtain ⟨g1, o', g2, g3⟩ := r.par y z o hx hpp
          refine ⟨z, o', by rw [at_set_ne (by omega)]; exact g2, ?_⟩
          rw [← h2]
          unfold St.handle; rw [g3]
      · exact ⟨y, q, by rw [at_set_ne ey]; exact h1, h2⟩
    · rw [e] at hv
      unfold CApi.Alg.put at hv
      split at hv
      · cases hv
      · rename_i hne
        obtain ⟨y, q, h1, h2⟩ := r.dom h v hv
        refine ⟨y, q, ?_, h2⟩
        rw [at_set_ne]
        · exact h1
        · rintro rfl
          rw [hx] at h1; cases h1
          exact hne h2.symm
  · intro y z q hy hp
    obtain ⟨hne, iy⟩ := key hy
    obtain ⟨g1, o', g2, g3⟩ := r.par y z q iy hp
    refine ⟨g1, o', ?_, g3⟩
    rw [at_set_ne]
    · exact g2
    · rintro rfl; exact hno y q iy hp
  · intro y z q w hy hz hp hp' hc'; exact r.root y z q w (key hy).2 (key hz).2 hp hp' hc'
  · intro y z q w hy hz hc'; exact r.cls y z q w (key hy).2 (key hz).2 hc'
  · intro y q hy; exact r.name y q (key hy).2

/-- The handle in a cell is replaced by a new one. -/
theorem R.replace (r : R L s p t) {x : Nat} {o : Obj} (hx : at? s.objs x = some o) {c' : CApi.Alg.St δ} {t' : CApi.Alg.Prog δ} {a n : Nat} (ha0 : a ≠ 0) (ha : t.live a = none)
    (hr : CApi.Alg.Rel L c' t') (hc : t'.cfgs = t.cfgs) (hl : t'.live = CApi.Alg.put (CApi.Alg.put t.live (s.handle o) none) a (some (o.cls, n))) :
    R L { s with c := c', cells := s.cells.set o.cell a } { p with alg := t'.alg, vars := p.vars.set o.cell (some n) } t' := by
  have hcell := r.cell x o hx
  have same : ∀ {q : Obj}, q.cell = o.cell → ({ s with c := c', cells := s.cells.set o.cell a } : St δ).handle q = a ∧
      ({ p with alg := t'.alg, vars := p.vars.set o.cell (some n) } : Prog δ).target q = some n := by
    intro q hq
    unfold St.handle Prog.target
    simp only
    rw [hq, List.getElem?_set_self hcell, List.getElem?_set_self (by rw [← r.len]; exact hcell)]
    exact ⟨rfl, rfl⟩
  have other : ∀ {q : Obj}, q.cell ≠ o.cell → ({ s with c := c', cells := s.cells.set o.cell a } : St δ).handle q = s.handle q ∧
      ({ p with alg := t'.alg, vars := p.vars.set o.cell (some n) } : Prog δ).target q = p.target q := by
    intro q hq
    unfold St.handle Prog.target
    simp only
    rw [List.getElem?_set_ne (fun e => hq e.symm), List.getElem?_set_ne (fun e => hq e.symm)]
    exact ⟨rfl, rfl⟩
  have nota : ∀ {y : Nat} {q : Obj}, at? s.objs y = some q → s.handle q ≠ a := by
    intro y q hy e
    cases ht : p.target q with
    | none => rw [r.null y q hy ht] at e; exact ha0 e.symm
    | some k => have := r.live y q k hy ht; rw [e, ha] at this; cases this
  refine ⟨hr, rfl, by rw [hc]; exact r.cfgs, r.objs, by simp [r.len], ?_, ?_, ?_, ?_, ?_, r.par, r.root, r.cls, r.name⟩
  · intro y q hy; simp only [List.length_set]; exact r.cell y q hy
  · intro y q hy ht
    by_cases e : q.cell = o.cell
    · rw [(same e).2] at ht; cases ht
    · rw [(other e).2] at ht; rw [(other e).1]; exact r.null y q hy ht
  · intro y q k hy ht
    by_cases e : q.cell = o.cell
    · rw [(same e).2] at ht; cases ht
      rw [(same e).1, hl, r.cls y x q o hy hx e]
      simp [CApi.Alg.put]
    · rw [(other e).2] at ht; rw [(other e).1, hl]
      have h1 := r.live y q k hy ht
      unfold CApi.Alg.put
      rw [if_neg (nota hy), if_neg]
      · exact h1
      · intro e2
        exact e (r.uniq y x q o hy hx e2 (r.nonzero hy ht))
  · intro y z q w hy hz hh h0
    by_cases e : q.cell = o.cell
    · by_cases e' : w.cell = o.cell
      · rw [e, e']
      · rw [(same e).1, (other e').1] at hh
        exact absurd hh.symm (nota hz)
    · by_cases e' : w.cell = o.cell
      · rw [(same e').1, (other e).1] at hh
        exact absurd hh (nota hy)
      · rw [(other e).1, (other e').1] at hh
        rw [(other e).1] at h0
        exact r.uniq y z q w hy hz hh h0
  · intro h v hv
    rw [hl] at hv
    unfold CApi.Alg.put at hv
    split at hv
    · rename_i e
      exact ⟨x, o, hx, by rw [(same rfl).1]; exact e.symm⟩
    · split at hv
      · cases hv
      · rename_i hne
        obtain ⟨y, q, h1, h2⟩ := r.dom h v hv
        refine ⟨y, q, h1, ?_⟩
        rw [(other ?_).1]
        · exact h2
        · intro e
          apply hne
          rw [← h2]
          unfold St.handle; rw [e]

theorem pyStr_new (v : Str) : ∃ b, Cfg.newString v = .str (some b) ∧ pyStr b = cstr v := by
  refine ⟨_, rfl, ?_⟩
  obtain ⟨_, _, ⟨rest, h⟩, _⟩ := C72_string_new v
  rw [h]
  unfold pyStr
  have hm : ((cstr v ++ [nul]).map Option.some ++ rest).map (fun c => c.getD nul) = cstr v ++ nul :: rest.map (fun c => c.getD nul) := by
    simp [List.map_append, Function.comp_def]
  rw [hm]
  have hcv : ∀ c ∈ cstr v, (c != nul) = true := by
    unfold cstr
    intro c hc
    have := takeWhile_mem _ hc
    simpa using this
  generalize rest.map (fun c => c.getD nul) = r' at *
  generalize cstr v = w at *
  unfold cstr
  rw [List.takeWhile_append_of_pos hcv]
  simp

/-- Both undefined, or the same result and states that belong together. -/
def Match (L : Lib δ) : Out (St δ) → Out (Prog δ) → Prop
  | none, none => True
  | some (s, v), some (p, w) => v = w ∧ ∃ t, R L s p t
  | _, _ => False

variable {usable : Nat → Nat} {what : Exc → Str} {dead : Str}

theorem raise_doc (usable : Nat → Nat) (w : Str) : raise usable w = docRaise usable w := by
  unfold raise docRaise
  dsimp only
  split
  · rw [if_neg (by omega)]
  · rw [if_pos (by omega)]

theorem match_raise (h : ∃ t, R L s p t) (w : Str) (v : Except Exn Val) : Match L (leave usable s (some w) v) ((docRaise usable w).map fun r => (p, r)) := by
  rw [← raise_doc]
  unfold leave
  simp only
  cases raise usable w with
  | none => trivial
  | some e => exact ⟨rfl, h⟩

theorem match_leave (h : ∃ t, R L s p t) {v w : Except Exn Val} (e : v = w) : Match L (leave usable s none v) (some (p, w)) := ⟨e, h⟩

theorem R.newObj (r : R L s p t) {c' : CApi.Alg.St δ} {t' : CApi.Alg.Prog δ} {g : Algo.St δ} (c h : Nat) (v : Option Nat) (n : Str) (hn : n ≠ [])
    (hr : CApi.Alg.Rel L c' t') (hg : t'.alg = g) (hc : t'.cfgs = p.cfgs)
    (hv : (v = none ∧ h = 0 ∧ t'.live = t.live) ∨ (∃ m, v = some m ∧ t.live h = none ∧ t'.live = CApi.Alg.put t.live h (some (c, m)))) :
    Match L (({ s with c := c' } : St δ).newObj c h n) (({ p with alg := g } : Prog δ).newObj c v n) := by
  unfold St.newObj Prog.newObj
  rw [if_neg hn]
  exact ⟨by simp only [r.objs], t', r.add c h v n hn hr hg hc hv⟩

/-- One statement. -/
theorem R.step (ok : CApi.Alg.LibOk L) (r : R L s p t) {a : Nat} {op : Op δ} (ha : Fresh s a) (hu : Allowed L p op) :
    Match L (step L usable what dead s a op) (doc L usable what dead p op) := by
  obtain ⟨ha0, hal⟩ := r.legal ha
  have rel_id : CApi.Alg.Rel L s.c { t with alg := p.alg } := by rw [r.alg]; exact r.rel
  have ot : ∀ x, at? p.objs x = at? s.objs x := by intro x; rw [r.objs]
  cases op with
  | init c n =>
    simp only [Alg.step, doc, Op.on, Alg.init]
    by_cases hn : n = []
    · subst hn
      exact ⟨rfl, t, r⟩
    · rw [if_neg hn]
      exact r.newObj (c' := s.c) (g := p.alg) c 0 none n hn rel_id rfl r.cfgs.symm (.inl ⟨rfl, rfl, rfl⟩)
  | create c n i =>
    have hag := CApi.Alg.rel_exec ok r.rel (a := a) (c := .create c (cstr i)) ⟨ha0, hal⟩
    simp only [Alg.step, doc, Op.on, Alg.create]
    simp only [CApi.Alg.exec, CApi.Alg.spec, CApi.Alg.answer] at hag
    rw [r.alg]
    cases hcc : createCls t.alg c (cstr i) with
    | mk g res =>
      rw [hcc] at hag
      cases hex : CApi.Alg.create s.c a c (cstr i) with
      | none =>
        rw [hex] at hag
        cases res with
        | error e => cases e <;> first | trivial | exact hag.elim
        | ok m => exact hag.elim
      | some y =>
        obtain ⟨s', res'⟩ := y
        rw [hex] at hag
        cases res with
        | error e =>
          cases e with
          | ub => exact hag.elim
          | _ =>
            obtain ⟨h1, h2⟩ := hag
            simp only [CApi.Alg.Same] at h2
            subst h2
            exact ⟨rfl, _, r.alg' h1⟩
        | ok m =>
          cases m with
          | none =>
            obtain ⟨h1, h2⟩ := hag
            simp only [CApi.Alg.Same] at h2
            subst h2
            exact ⟨rfl, _, r.alg' h1⟩
          | some m =>
            obtain ⟨h1, h2⟩ := hag
            simp only [CApi.Alg.Same] at h2
            subst h2
            simp only at h1
            simp only
            rw [if_neg ha0]
            unfold fromPointer
            by_cases hn : n = []
            · subst hn
              rw [if_pos rfl, if_neg ha0]
              have hd := CApi.Alg.rel_exec ok h1 (a := a) (c := .destroy c a) (by
                intro c' k hk
                simp [CApi.Alg.put] at hk
                exact hk.1.symm)
              simp only [CApi.Alg.exec, CApi.Alg.spec, CApi.Alg.destroy] at hd
              obtain ⟨k1, _⟩ := hd
              have hs : (CApi.Alg.Prog.named ({ alg := g, cfgs := t.cfgs, live := CApi.Alg.put t.live a (some (c, m)) } : CApi.Alg.Prog δ) c a).isSome = true := by
                simp [CApi.Alg.Prog.named, CApi.Alg.put]
              rw [if_pos hs] at k1
              refine ⟨rfl, { t with alg := g }, ?_⟩
              refine r.alg' ?_
              have e : CApi.Alg.put (CApi.Alg.put t.live a (some (c, m))) a none = t.live := by
                funext z
                unfold CApi.Alg.put
                split
                · rename_i e; rw [e, hal]
                · rfl
              rw [e] at k1
              exact k1
            · rw [if_neg hn]
              exact r.newObj (g := g) c a (some m) n hn h1 rfl r.cfgs.symm (.inr ⟨m, rfl, hal, rfl⟩)
  | outside g k =>
    have hag := CApi.Alg.rel_exec ok r.rel (a := a) (c := .outside g k) (by show CApi.Alg.Fair L t.alg g; rw [← r.alg]; exact hu.2.2 g k rfl)
    exact ⟨rfl, _, r.world hag.1⟩
  | copy x n =>
    simp only [Alg.step, doc, Op.on, ot]
    cases hx : at? s.objs x with
    | none => trivial
    | some o => exact ⟨by rw [r.objs], t, r.copy hx _ (nameOr_ne (r.name x o hx))⟩
  | name x =>
    simp only [Alg.step, doc, Op.on, ot]
    cases hx : at? s.objs x with
    | none => trivial
    | some o => exact ⟨rfl, t, r⟩
  | setName x n =>
    simp only [Alg.step, doc, Op.on, ot]
    cases hx : at? s.objs x with
    | none => trivial
    | some o =>
      simp only [Option.bind_some, Alg.setName, docOn]
      split
      · exact ⟨rfl, t, r⟩
      · rename_i hn
        exact ⟨rfl, t, r.rename hx n hn⟩
  | implName x =>
    simp only [Alg.step, doc, Op.on, ot]
    cases hx : at? s.objs x with
    | none => trivial
    | some o =>
      simp only [Option.bind_some, Alg.implName, docOn]
      cases ht : p.target o with
      | none =>
        rw [if_pos (r.null x o hx ht)]
        exact ⟨rfl, t, r⟩
      | some m =>
        rw [if_neg (r.nonzero hx ht)]
        have hg := (CApi.Alg.get_gen r.rel (s.handle o)).2 _ _ (r.live x o m hx ht)
        unfold CApi.Alg.implName
        rw [hg]
        simp only
        rw [r.alg, r.rel.alg]
        cases t.alg.objs[m]? with
        | none => trivial
        | some i =>
          obtain ⟨b, h1, h2⟩ := pyStr_new i.impl
          simp only [h1]
          exact ⟨by rw [h2], t, r⟩
  | clone x n =>
    simp only [Alg.step, doc, Op.on, ot]
    cases hx : at? s.objs x with
    | none => trivial
    | some o =>
      have hnn : nameOr n o.name ≠ [] := nameOr_ne (r.name x o hx)
      have hag := CApi.Alg.rel_exec ok r.rel (a := a) (c := .clone o.cls (s.handle o)) ⟨ha0, hal⟩
      simp only [CApi.Alg.exec, CApi.Alg.spec] at hag
      change Match L (Alg.clone usable dead s a o n) (docOn L usable what dead p x o (.clone x n))
      have e : Alg.clone usable dead s a o n = match CApi.Alg.clone s.c a o.cls (s.handle o) with
          | none => none
          | some (s', .handle h) =>
            if s.handle o ≠ 0 ∧ h = 0 then
              match fromPointer { s with c := s' } o.cls 0 (nameOr n o.name) with
              | some (s2, .error e) => some (s2, .error e)
              | some (_, .ok _) => leave usable { s with c := s' } (some dead) (.ok .none)
              | none => none
            else fromPointer { s with c := s' } o.cls h (nameOr n o.name)
          | some _ => none := rfl
      rw [e]
      simp only [docOn]
      cases ht : p.target o with
      | none =>
        have h0 := r.null x o hx ht
        rw [h0]
        simp only [CApi.Alg.clone, ↓reduceIte, ne_eq, not_true_eq_false, false_and]
        unfold fromPointer
        rw [if_neg hnn]
        exact r.newObj (c' := s.c) (g := p.alg) o.cls 0 none _ hnn rel_id rfl r.cfgs.symm (.inl ⟨rfl, rfl, rfl⟩)
      | some m =>
        have hl := r.live x o m hx ht
        have hnm : t.named o.cls (s.handle o) = some m := by simp [CApi.Alg.Prog.named, hl]
        rw [hnm] at hag
        simp only [CApi.Alg.answer] at hag
        rw [r.alg]
        cases hcl : cloneObj t.alg m with
        | mk g res =>
          rw [hcl] at hag
          cases hex : CApi.Alg.clone s.c a o.cls (s.handle o) with
          | none =>
            rw [hex] at hag
            cases res with
            | error e => simp only [hcl]; trivial
            | ok k => exact hag.elim
          | some y =>
            obtain ⟨s', res'⟩ := y
            rw [hex] at hag
            cases res with
            | error e =>
              exfalso
              have : cloneObj t.alg m = (t.alg, .error .ub) := by
                unfold cloneObj at hcl ⊢
                split at hcl
                · rfl
                · cases hcl
              rw [this] at hcl
              cases hcl
              exact hag.elim
            | ok k =>
              obtain ⟨h1, h2⟩ := hag
              simp only [CApi.Alg.Same] at h2
              subst h2
              simp only at h1
              simp only
              rw [if_neg (by simp [ha0])]
              unfold fromPointer
              rw [if_neg hnn, hcl]
              exact r.newObj (g := g) o.cls a (some k) _ hnn h1 rfl r.cfgs.symm (.inr ⟨k, rfl, hal, rfl⟩)
  | getConfig x cb =>
    simp only [Alg.step, doc, Op.on, ot]
    cases hx : at? s.objs x with
    | none => trivial
    | some o =>
      simp only [Option.bind_some, Alg.getConfig, docOn, Prog.block]
      have hag := CApi.Alg.rel_exec ok r.rel (a := a) (c := .getType o.cls (cstr o.name) (s.handle o) cb) trivial
      simp only [CApi.Alg.exec, CApi.Alg.spec, r.named hx, CApi.Alg.Prog.block, ← r.cfgs, ← r.alg] at hag
      unfold getErr
      rw [r.object hx, r.rel.cfgs, r.rel.alg, ← r.cfgs, ← r.alg]
      cases hk : CApi.get p.cfgs cb with
      | error e =>
        rw [hk] at hag
        cases hex : CApi.Alg.getType L s.c o.cls (cstr o.name) (s.handle o) cb with
        | none => rw [hex] at hag; exact hag.elim
        | some y =>
          rw [hex] at hag
          exact match_raise ⟨t, r.same hag.1⟩ _ _
      | ok k =>
        rw [hk] at hag
        simp only [CApi.Alg.answer] at hag
        simp only [outcome]
        cases hn : getNested L p.alg (L.typeName o.cls) (cstr o.name) k.tag (p.target o) with
        | mk g res =>
          rw [hn] at hag
          cases hex : CApi.Alg.getType L s.c o.cls (cstr o.name) (s.handle o) cb with
          | none =>
            rw [hex] at hag
            cases res with
            | error e => cases e <;> first | trivial | exact hag.elim
            | ok m => exact hag.elim
          | some y =>
            obtain ⟨s', res'⟩ := y
            rw [hex] at hag
            cases res with
            | error e =>
              cases e with
              | ub => exact hag.elim
              | _ => exact match_raise ⟨_, r.alg' hag.1⟩ _ _
            | ok m => exact match_leave ⟨_, r.alg' hag.1⟩ rfl
  | setConfig x cb =>
    simp only [Alg.step, doc, Op.on, ot]
    cases hx : at? s.objs x with
    | none => trivial
    | some o =>
      simp only [Option.bind_some, Alg.setConfig, docOn, Prog.block]
      have hcell := r.cell x o hx
      have keep : s.cells.set o.cell (s.handle o) = s.cells := by
        apply List.ext_getElem?
        intro i
        by_cases e : i = o.cell
        · subst e
          rw [List.getElem?_set_self hcell]
          unfold St.handle
          rw [List.getElem?_eq_getElem hcell]; rfl
        · rw [List.getElem?_set_ne (fun h => e h.symm)]
      have hag := CApi.Alg.rel_exec ok r.rel (a := a) (c := .setType o.cls (cstr o.name) cb (s.handle o)) ⟨ha0, hal⟩
      simp only [CApi.Alg.exec, CApi.Alg.spec, r.named hx, CApi.Alg.Prog.block, ← r.cfgs, ← r.alg] at hag
      unfold setErr
      rw [r.object hx, r.rel.cfgs, r.rel.alg, ← r.cfgs, ← r.alg]
      cases hk : CApi.get p.cfgs cb with
      | error e =>
        rw [hk] at hag
        cases hex : CApi.Alg.setType L s.c a o.cls (cstr o.name) cb (s.handle o) with
        | none => rw [hex] at hag; exact hag.elim
        | some y =>
          obtain ⟨s', res'⟩ := y
          rw [hex] at hag
          obtain ⟨h1, h2⟩ := hag
          simp only [CApi.Alg.Same] at h2
          subst h2
          simp only [keep]
          exact match_raise ⟨t, r.same h1⟩ _ _
      | ok k =>
        rw [hk] at hag
        simp only [CApi.Alg.answer] at hag
        simp only [outcome]
        cases hn : setNestedCls L p.alg o.cls (cstr o.name) k.tag (p.target o) with
        | mk g qres =>
          obtain ⟨q, res⟩ := qres
          rw [hn] at hag
          cases hex : CApi.Alg.setType L s.c a o.cls (cstr o.name) cb (s.handle o) with
          | none =>
            rw [hex] at hag
            cases res with
            | error e => cases e <;> first | trivial | exact hag.elim
            | ok m => exact hag.elim
          | some y =>
            obtain ⟨s', res'⟩ := y
            rw [hex] at hag
            cases res with
            | error e =>
              cases e with
              | ub => exact hag.elim
              | _ =>
                obtain ⟨h1, h2⟩ := hag
                simp only [CApi.Alg.Same] at h2
                subst h2
                simp only [keep]
                exact match_raise ⟨_, r.alg' h1⟩ _ _
            | ok m =>
              obtain ⟨h1, h2⟩ := hag
              simp only [CApi.Alg.Same] at h2
              subst h2
              cases q with
              | none =>
                simp only [keep]
                exact match_leave ⟨_, r.alg' h1⟩ rfl
              | some n =>
                simp only at h1 ⊢
                by_cases hq : p.target o = some n
                · rw [if_pos hq] at h1
                  simp only [if_pos hq, keep]
                  refine match_leave ⟨{ t with alg := g }, ?_⟩ rfl
                  have hv : p.vars.set o.cell (some n) = p.vars := by
                    apply List.ext_getElem?
                    intro i
                    by_cases e : i = o.cell
                    · subst e
                      have hl : o.cell < p.vars.length := by rw [← r.len]; exact hcell
                      rw [List.getElem?_set_self hl]
                      unfold Prog.target at hq
                      rw [List.getElem?_eq_getElem hl] at hq ⊢
                      simp at hq
                      rw [hq]
                    · rw [List.getElem?_set_ne (fun h => e h.symm)]
                  rw [hv]
                  exact r.alg' h1
                · rw [if_neg hq] at h1
                  simp only [if_neg hq, CApi.Alg.hand] at h1 ⊢
                  exact match_leave ⟨⟨g, t.cfgs, CApi.Alg.put (CApi.Alg.put t.live (s.handle o) none) a (some (o.cls, n))⟩,
                    r.replace hx ha0 hal (t' := ⟨g, t.cfgs, CApi.Alg.put (CApi.Alg.put t.live (s.handle o) none) a (some (o.cls, n))⟩) h1 rfl rfl⟩ rfl
  | checkConfig x cb =>
    simp only [Alg.step, doc, Op.on, ot]
    cases hx : at? s.objs x with
    | none => trivial
    | some o =>
      simp only [Option.bind_some, Alg.checkConfig, docOn, Prog.block]
      have hag := CApi.Alg.rel_exec ok r.rel (a := a) (c := .checkType o.cls (cstr o.name) cb) trivial
      simp only [CApi.Alg.exec, CApi.Alg.spec, CApi.Alg.Prog.block, ← r.cfgs, ← r.alg] at hag
      unfold checkErr
      rw [r.rel.cfgs, r.rel.alg, ← r.cfgs, ← r.alg]
      cases hk : CApi.get p.cfgs cb with
      | error e =>
        rw [hk] at hag
        cases hex : CApi.Alg.checkType L s.c o.cls (cstr o.name) cb with
        | none => rw [hex] at hag; exact hag.elim
        | some y =>
          rw [hex] at hag
          exact match_raise ⟨t, r.same hag.1⟩ _ _
      | ok k =>
        rw [hk] at hag
        simp only [CApi.Alg.answer] at hag
        simp only [outcome]
        cases hn : checkNested L p.alg (L.typeName o.cls) (cstr o.name) k.tag with
        | mk g res =>
          rw [hn] at hag
          cases hex : CApi.Alg.checkType L s.c o.cls (cstr o.name) cb with
          | none =>
            rw [hex] at hag
            cases res with
            | error e => cases e <;> first | trivial | exact hag.elim
            | ok m => exact hag.elim
          | some y =>
            obtain ⟨s', res'⟩ := y
            rw [hex] at hag
            cases res with
            | error e =>
              cases e with
              | ub => exact hag.elim
              | _ => exact match_raise ⟨_, r.alg' hag.1⟩ _ _
            | ok m =>
              obtain ⟨h1, h2⟩ := hag
              simp only [CApi.Alg.Same] at h2
              subst h2
              exact match_leave ⟨_, r.alg' h1⟩ rfl
  | collect x =>
    simp only [Alg.step, doc, Op.on, ot]
    cases hx : at? s.objs x with
    | none => trivial
    | some o =>
      simp only [Option.bind_some, Alg.collect, docOn]
      have hno : ∀ (y : Nat) (q : Obj), at? s.objs y = some q → q.parent ≠ some x := by
        intro y q hy
        exact hu.2.1 x rfl y q (by rw [ot]; exact hy)
      by_cases hc : o.parent = none ∧ s.handle o ≠ 0
      · rw [if_pos hc]
        have hl : ∃ m, p.target o = some m := by
          cases ht : p.target o with
          | none => exact absurd (r.null x o hx ht) hc.2
          | some m => exact ⟨m, rfl⟩
        obtain ⟨m, ht⟩ := hl
        have hlive := r.live x o m hx ht
        have hag := CApi.Alg.rel_exec ok r.rel (a := a) (c := .destroy o.cls (s.handle o)) (by
          intro c' k hk
          rw [hlive] at hk; cases hk; rfl)
        simp only [CApi.Alg.exec, CApi.Alg.spec] at hag
        have hs : (t.named o.cls (s.handle o)).isSome = true := by simp [CApi.Alg.Prog.named, hlive]
        rw [if_pos hs] at hag
        cases hex : CApi.Alg.destroy s.c o.cls (s.handle o) with
        | none => rw [hex] at hag; exact hag.elim
        | some y =>
          obtain ⟨s', res'⟩ := y
          rw [hex] at hag
          exact ⟨rfl, _, r.drop hx hno hag.1 rfl rfl (.inr ⟨hc.1, hc.2, rfl⟩)⟩
      · rw [if_neg hc]
        refine ⟨rfl, t, r.drop hx hno r.rel rfl rfl (.inl ⟨rfl, ?_⟩)⟩
        intro v hv hp
        refine hc ⟨hp, ?_⟩
        intro e
        rw [e, r.rel.null] at hv; cases hv

theorem R.run (ok : CApi.Alg.LibOk L) : ∀ (l : List (Nat × Op δ)) {s : St δ} {p : Prog δ} {t : CApi.Alg.Prog δ}, R L s p t → Legal L usable what dead s p l →
    (docAll L usable what dead p l = none → run L usable what dead s l = none) ∧
    ∀ p' vs, docAll L usable what dead p l = some (p', vs) → ∃ s' t', run L usable what dead s l = some (s', vs) ∧ R L s' p' t'
  | [], s, p, t, r, _ => ⟨by simp [docAll], by
      intro p' vs h
      simp only [docAll, Option.some.injEq, Prod.mk.injEq] at h
      obtain ⟨rfl, rfl⟩ := h
      exact ⟨s, t, rfl, r⟩⟩
  | (a, o) :: l, s, p, t, r, hl => by
    have hm := r.step ok hl.2.1 hl.1 (usable := usable) (what := what) (dead := dead)
    have hrest := hl.2.2
    simp only [docAll, Alg.run]
    cases hd : doc L usable what dead p o with
    | none =>
      rw [hd] at hm
      cases hs : Alg.step L usable what dead s a o with
      | none => exact ⟨fun _ => rfl, by intro p' vs h; cases h⟩
      | some y => rw [hs] at hm; exact hm.elim
    | some z =>
      obtain ⟨p1, w⟩ := z
      rw [hd] at hm
      cases hs : Alg.step L usable what dead s a o with
      | none => rw [hs] at hm; exact hm.elim
      | some y =>
        obtain ⟨s1, v⟩ := y
        rw [hs] at hm
        obtain ⟨rfl, t1, r1⟩ := hm
        obtain ⟨i1, i2⟩ := R.run ok l r1 (hrest s1 p1 v v hs hd)
        simp only [Option.bind_some]
        cases hda : docAll L usable what dead p1 l with
        | none => exact ⟨fun _ => by rw [i1 hda]; rfl, by intro p' vs h; cases h⟩
        | some q =>
          obtain ⟨p2, vs2⟩ := q
          refine ⟨(by intro h; cases h), ?_⟩
          intro p' vs h
          simp only [Option.map_some, Option.some.injEq, Prod.mk.injEq] at h
          obtain ⟨rfl, rfl⟩ := h
          obtain ⟨s2, t2, j1, j2⟩ := i2 p2 vs2 hda
          exact ⟨s2, t2, by rw [j1]; rfl, j2⟩

/-- C214: every Python program over algorithm objects has the documented results and the effect of the documented C++ program, in which each
    original is a shared pointer and its copies are other names for it; it is undefined only where that one is.  Names are never empty. -/
theorem C214_refines (ok : CApi.Alg.LibOk L) (l : List (Nat × Op δ)) (hl : Legal L usable what dead St.init Prog.init l) :
    (docAll L usable what dead Prog.init l = none → run L usable what dead St.init l = none) ∧
    ∀ p vs, docAll L usable what dead Prog.init l = some (p, vs) → ∃ s, run L usable what dead St.init l = some (s, vs) ∧ s.c.alg = p.alg ∧ s.c.cfgs = p.cfgs ∧
      s.objs = p.objs ∧ ∀ x o, at? s.objs x = some o → o.name ≠ [] := by
  obtain ⟨h1, h2⟩ := R.run ok l (R.init L) hl
  refine ⟨h1, fun p vs h => ?_⟩
  obtain ⟨s, t, j1, r⟩ := h2 p vs h
  exact ⟨s, j1, by rw [r.rel.alg, r.alg], by rw [r.rel.cfgs, r.cfgs], r.objs, r.name⟩

/-- C215: after any program, the C side keeps exactly the algorithms that some Python object stands for: every initialised object has a
    handle that the C side accepts, as an algorithm of the object's class, and a handle that is accepted belongs to some object.  In
    particular nothing is kept once all objects are collected. -/
theorem C215_lifetime (ok : CApi.Alg.LibOk L) (l : List (Nat × Op δ)) (hl : Legal L usable what dead St.init Prog.init l) {s : St δ} {p : Prog δ} {vs : List (Except Exn Val)}
    (hp : docAll L usable what dead Prog.init l = some (p, vs)) (hs : run L usable what dead St.init l = some (s, vs)) :
    (∀ x o, at? p.objs x = some o → (p.target o = none ∧ s.handle o = 0) ∨
      ∃ n, p.target o = some n ∧ get s.c.gen (s.handle o) = .ok ⟨s.handle o, n⟩ ∧ get (s.c.typed o.cls) (s.handle o) = .ok ⟨s.handle o, n⟩) ∧
    (∀ h n, get s.c.gen h = .ok n → ∃ x o, at? p.objs x = some o ∧ s.handle o = h) ∧
    (∀ c h n, get (s.c.typed c) h = .ok n → ∃ x o, at? p.objs x = some o ∧ s.handle o = h ∧ o.cls = c) := by
  obtain ⟨_, h2⟩ := R.run ok l (R.init L) hl
  obtain ⟨s', t, j1, r⟩ := h2 p vs hp
  rw [hs] at j1
  cases j1
  refine ⟨fun x o hx => ?_, fun h n hg => ?_, fun c h n hg => ?_⟩
  · rw [← r.objs] at hx
    cases ht : p.target o with
    | none => exact .inl ⟨rfl, r.null x o hx ht⟩
    | some n =>
      have hl := r.live x o n hx ht
      have h0 := r.nonzero hx ht
      refine .inr ⟨n, rfl, (CApi.Alg.get_gen r.rel _).2 _ _ hl, (CApi.Alg.exact_get (r.rel.typed o.cls) h0).1 n ?_⟩
      simp [CApi.Alg.Prog.named, hl]
  · rw [← r.objs]
    cases hlv : t.live h with
    | none =>
      obtain ⟨e, he⟩ := (CApi.Alg.get_gen r.rel h).1 hlv
      rw [he] at hg; cases hg
    | some v => exact r.dom h v hlv
  · rw [← r.objs]
    by_cases h0 : h = 0
    · subst h0; simp [CApi.get] at hg
    · cases hn : t.named c h with
      | none => rw [(CApi.Alg.exact_get (r.rel.typed c) h0).2 hn] at hg; cases hg
      | some m =>
        have hlv := CApi.Alg.named_cls hn
        obtain ⟨x, o, h1, h2⟩ := r.dom h _ hlv
        refine ⟨x, o, h1, h2, ?_⟩
        cases ht : p.target o with
        | none => exact absurd (by rw [← h2]; exact r.null x o h1 ht) h0
        | some k =>
          have := r.live x o k h1 ht
          rw [h2, hlv] at this
          cases this; rfl

/-- C216: after any program a shallow copy and its original are the same algorithm, whichever of the two was (re)configured: they hold the
    same handle, and asking for the implementation name or a clone through either is the same. -/
theorem C216_copies (ok : CApi.Alg.LibOk L) (l : List (Nat × Op δ)) (hl : Legal L usable what dead St.init Prog.init l) {s : St δ} {vs : List (Except Exn Val)}
    (hs : run L usable what dead St.init l = some (s, vs)) {x y : Nat} {o q : Obj} (hx : at? s.objs x = some o) (hy : at? s.objs y = some q) (hc : q.parent = some x) :
    s.handle q = s.handle o ∧ q.cls = o.cls ∧ ∀ a n, step L usable what dead s a (.implName y) = step L usable what dead s a (.implName x) ∧
      (n ≠ [] → step L usable what dead s a (.clone y (some n)) = step L usable what dead s a (.clone x (some n))) := by
  obtain ⟨h1, h2⟩ := R.run ok l (R.init L) hl
  cases hd : docAll L usable what dead Prog.init l with
  | none => rw [h1 hd] at hs; cases hs
  | some z =>
    obtain ⟨p, ws⟩ := z
    obtain ⟨s', t, j1, r⟩ := h2 p ws hd
    rw [hs] at j1
    cases j1
    obtain ⟨_, o', g1, g2⟩ := r.par y x q hy hc
    rw [hx] at g1; cases g1
    have e1 : s.handle q = s.handle o := by unfold St.handle; rw [g2]
    have e2 : q.cls = o.cls := r.cls y x q o hy hx g2.symm
    refine ⟨e1, e2, fun a n => ⟨?_, ?_⟩⟩
    · simp only [Alg.step, hx, hy, Option.bind_some, Alg.implName, e1]
    · intro hn
      simp only [Alg.step, hx, hy, Option.bind_some, Alg.clone, e1, e2, if_neg hn]

/-! ### A concrete program -/

/-- A test of legality for programs without `outside`. -/
def legalB (L : Lib δ) (usable : Nat → Nat) (what : Exc → Str) (dead : Str) : St δ → Prog δ → List (Nat × Op δ) → Bool
  | _, _, [] => true
  | s, p, (a, o) :: l =>
    ((match o.on with | some x => (at? p.objs x).isSome | none => true) &&
     (match o with
       | .collect x => (List.range p.objs.length).all fun y => match at? p.objs y with | some q => q.parent != some x | none => true
       | .outside _ _ => false
       | _ => true) &&
     a != 0 && (List.range s.objs.length).all fun x => match at? s.objs x with | some q => s.handle q != a | none => true) &&
    match step L usable what dead s a o, doc L usable what dead p o with
    | some (s', _), some (p', _) => legalB L usable what dead s' p' l
    | _, _ => true

theorem at?_lt {α : Type} {l : List (Option α)} {x : Nat} {o : α} (h : at? l x = some o) : x < l.length := by
  by_cases hx : x < l.length
  · exact hx
  · simp [at?, List.getElem?_eq_none (Nat.le_of_not_lt hx)] at h

theorem legal_of {usable : Nat → Nat} {what : Exc → Str} {dead : Str} : ∀ (l : List (Nat × Op δ)) {s : St δ} {p : Prog δ}, legalB L usable what dead s p l = true → Legal L usable what dead s p l
  | [], _, _, _ => trivial
  | (a, o) :: l, s, p, h => by
    simp only [legalB, Bool.and_eq_true, bne_iff_ne, ne_eq, List.all_eq_true, List.mem_range] at h
    obtain ⟨⟨⟨⟨h1, h2⟩, h3⟩, h4⟩, h5⟩ := h
    refine ⟨⟨?_, ?_, ?_⟩, ⟨h3, ?_⟩, ?_⟩
    · intro x hx
      rw [hx] at h1
      exact h1
    · intro x hx y q hy
      subst hx
      simp only [List.all_eq_true, List.mem_range] at h2
      have := h2 y (at?_lt hy)
      rw [hy] at this
      simpa using this
    · intro g k hx
      subst hx
      cases h2
    · intro x q hx
      have := h4 x (at?_lt hx)
      rw [hx] at this
      simpa using this
    · intro s' p' v w hs hd
      rw [hs, hd] at h5
      exact legal_of l h5

def exProg : List (Nat × Op Nat) :=
  [(4, .outside CApi.Alg.exWorld (store CApi.empty ⟨8, 0⟩).1), (16, .create 0 (c!"reader") (c!"ocv")), (4, .copy 0 none),
   (24, .setConfig 1 8), (4, .implName 0), (32, .clone 0 (some (c!"writer"))), (4, .setName 2 []), (4, .name 2), (40, .create 0 [] (c!"ocv")),
   (48, .create 0 (c!"r") (c!"none")), (4, .init 1 (c!"u")), (4, .implName 3), (4, .checkConfig 0 8), (4, .getConfig 0 99),
   (4, .collect 1), (4, .collect 0), (4, .implName 2)]

def exWhat : Exc → Str := fun _ => c!"x"
def exUse : Nat → Nat := fun n => n + 8

theorem exProg_legal : Legal CApi.Alg.exLib exUse exWhat (c!"dead") St.init Prog.init exProg :=
  ⟨⟨(by intro x hx; cases hx), (by intro x hx; cases hx), (by intro g k h; cases h; exact CApi.Alg.exWorld_fair)⟩, ⟨(by decide), (by intro x o h; simp [St.init, at?] at h)⟩,
   fun s' p' v w hs hd => by cases hs; cases hd; exact legal_of _ (by decide +kernel)⟩

/-- The copy was reconfigured to the other implementation: the original follows; the clone keeps it after both are gone. -/
example : (run CApi.Alg.exLib exUse exWhat (c!"dead") St.init exProg).map (fun x => x.2) =
    some [.ok .none, .ok (.obj 0), .ok (.obj 1), .ok .none, .ok (.str (c!"vxl")), .ok (.obj 2), .error .emptyName, .ok (.str (c!"writer")), .error .emptyName,
      .error .nullPointer, .ok (.obj 3), .ok .none, .ok (.bool true), .error (.vital (cstr (message (.stdException (c!"dead"))))),
      .ok .none, .ok .none, .ok (.str (c!"vxl"))] := by decide +kernel

end Vital.Py.Alg
