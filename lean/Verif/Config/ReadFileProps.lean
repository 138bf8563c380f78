import Verif.Config.ReadFile
import Verif.Sys.PathsProps
import Verif.Config.ParserFrame
import Verif.Config.WriteProps
/-
  C29 and the file level properties.
-/
namespace Vital.Parser
open Vital Vital.Config Vital.Expand Vital.Sys

/-! ### Specification -/

/-- Reading the file on its own yields a config that shows `e`. -/
def FileShows (w : World) (search : List Str) (path : Str) (e : Env) : Prop :=
  ∃ h' b, ReadsFile w [] search path h' (.ok b) ∧ Shows h' b e

/-- `path` names something that is a file. -/
def IsFile (w : World) (path : Str) : Bool := w.readable path && !w.isDir path

/-- The files called `name` in the directories, in order. -/
def filesIn (w : World) (name : Str) (dirs : List Str) : List Str :=
  (dirs.map (fun d => d ++ c!"/" ++ name)).filter (fun p => IsFile w p)

/-- The value of the first of the configs that has the key. -/
def firstVal (es : List Env) (k : Str) : Option Str := es.findSome? (fun e => e.val k)

/-- No config protects a key that an earlier one defines. -/
def NoConflict (es : List Env) : Prop := es.Pairwise (fun a b => ∀ k, (a.val k).isSome = true → b.ro k = false)

/-! ### Lemmas -/

theorem parseF_mono {w : World} {n m : Nat} {s : PS} {f : Str} {x : PS × Except PExc Unit} (h : parseF n w s f = some x) (hm : n ≤ m) :
    parseF m w s f = some x := by
  unfold parseF at h ⊢
  split at h
  · exact h
  · exact loopF_mono h hm

theorem readFileF_mono {w : World} {n m : Nat} {h : Heap} {search : List Str} {f : Str} {x : Heap × Except PExc Nat}
    (hx : readFileF n w h search f = some x) (hm : n ≤ m) : readFileF m w h search f = some x := by
  unfold readFileF at hx ⊢
  split at hx
  · rename_i h1; rw [if_pos h1]; exact hx
  · rename_i h1; rw [if_neg h1]
    split at hx
    · rename_i h2; rw [if_pos h2]; exact hx
    · rename_i h2; rw [if_neg h2]
      cases hp : parseF n w (fresh h search) f with
      | none => rw [hp] at hx; cases hx
      | some p => rw [hp] at hx; rw [parseF_mono hp hm]; exact hx

theorem searchLoopF_mono {w : World} {n m : Nat} {search : List Str} {name : Str} {merge : Bool} (hm : n ≤ m) :
    ∀ (ds : List Str) (h : Heap) (r : Option Nat) (x : Heap × Except PExc Nat),
    searchLoopF n w search name merge ds h r = some x → searchLoopF m w search name merge ds h r = some x := by
  intro ds
  induction ds with
  | nil => intro h r x hx; cases r <;> exact hx
  | cons d ds ih =>
    intro h r x hx
    unfold searchLoopF at hx ⊢
    simp only at hx ⊢
    split at hx
    · rename_i h1; rw [if_pos h1]; exact ih _ _ _ hx
    · rename_i h1; rw [if_neg h1]
      cases hp : readFileF n w h search (d ++ c!"/" ++ name) with
      | none => rw [hp] at hx; cases hx
      | some p =>
        rw [hp] at hx; rw [readFileF_mono hp hm]
        obtain ⟨h1, o⟩ := p
        cases o with
        | error e => exact hx
        | ok c =>
          simp only at hx ⊢
          split at hx
          · rename_i h1; rw [if_pos h1]; exact hx
          · rename_i h1; rw [if_neg h1]
            cases r with
            | none => exact ih _ _ _ hx
            | some r =>
              simp only at hx ⊢
              cases hmc : mergeConfig _ c r with
              | mk h2 o2 =>
                rw [hmc] at hx
                cases o2 with
                | error e => exact hx
                | ok u => exact ih _ _ _ hx

theorem shows_same {h h' : Heap} {b b' : Nat} {e e' : Env} (h1 : Shows h b e) (h2 : Shows h b e') (h3 : Shows h' b' e') : Shows h' b' e := by
  intro k
  obtain ⟨a1, a2, a3, a4, a5⟩ := h1 k
  obtain ⟨b1, b2, b3, b4, b5⟩ := h2 k
  have hv : e.val k = e'.val k := by
    rw [a1] at b1
    cases x : e.val k <;> cases y : e'.val k <;> rw [x, y] at b1 <;> simp at b1 ⊢
    exact b1
  have hro : e.ro k = e'.ro k := by rw [a3] at b3; simpa using b3
  have hl : e.loc k = e'.loc k := by rw [a4] at b4; simpa using b4
  rw [hv, hro, hl]
  exact h3 k

theorem isFile_iff {w : World} {p : Str} (hp : p ≠ []) : (fileExists w p = true ∧ fileIsDirectory w p = false) ↔ IsFile w p = true := by
  simp [fileExists, fileIsDirectory, IsFile, hp]

/-- Reading a file gives the same config whatever other blocks there are, and leaves those alone. -/
theorem reads_anywhere {w : World} {search : List Str} {p : Str} {e : Env} (hf : FileShows w search p e) {h : Heap} (hr : Reachable h) :
    ∃ h', ReadsFile w h search p h' (.ok h.length) ∧ Shows h' h.length e ∧ Reachable h' ∧ IsRoot h' h.length ∧
      ∀ i, i < h.length → h'[i]? = h[i]? := by
  obtain ⟨h0, b, ⟨n, hn⟩, hs⟩ := hf
  unfold readFileF at hn
  split at hn
  · cases hn
  rename_i hex
  split at hn
  · cases hn
  rename_i hdir
  cases hp : parseF n w (fresh [] search) p with
  | none => rw [hp] at hn; cases hn
  | some q =>
    obtain ⟨s, o⟩ := q
    rw [hp] at hn
    cases o with
    | error e => cases hn
    | ok u =>
      cases hn
      cases hc : w.content p with
      | none =>
        exfalso
        unfold parseF openFile at hp
        rw [hc] at hp
        cases hp
      | some c =>
        obtain ⟨ls, ds, ht, hl⟩ := C20_every_text c
        obtain ⟨tr, r, e1, x1, x2, x3⟩ := C20_every_parse hc ht hl nil_reachable ⟨n, hp⟩
        obtain ⟨s', y1, y2⟩ := C20_document hc ht hl x1 hr
        rw [← x2] at y1
        obtain ⟨f1, f2, f3, f4⟩ := Parses.frame hr y1
        obtain ⟨m, hm⟩ := y1
        refine ⟨s'.heap, ⟨m, ?_⟩, ?_, f2, by rw [← f1]; exact f3, f4⟩
        · unfold readFileF
          rw [if_neg hex, if_neg hdir, hm, ← f1]
        · rw [← f1]; exact shows_same hs x3 y2

/-- A read that throws does so whatever other blocks there are. -/
theorem throws_anywhere {w : World} {search : List Str} {p : Str} {x : PExc} {h0 : Heap} (hf : ReadsFile w [] search p h0 (.error x))
    {h : Heap} (hr : Reachable h) : ∃ h', ReadsFile w h search p h' (.error x) := by
  obtain ⟨n, hn⟩ := hf
  unfold readFileF at hn
  split at hn
  · rename_i hex
    cases hn
    exact ⟨h, 0, by unfold readFileF; rw [if_pos hex]⟩
  rename_i hex
  split at hn
  · rename_i hdir
    cases hn
    exact ⟨h, 0, by unfold readFileF; rw [if_neg hex, if_pos hdir]⟩
  rename_i hdir
  cases hp : parseF n w (fresh [] search) p with
  | none => rw [hp] at hn; cases hn
  | some q =>
    obtain ⟨s, o⟩ := q
    rw [hp] at hn
    cases o with
    | ok u => cases hn
    | error e =>
      cases hn
      have : ∃ s', Parses w (fresh h search) p s' (.error x) := by
        cases hc : w.content p with
        | none =>
          unfold parseF openFile at hp
          rw [hc] at hp
          cases hp
          exact ⟨_, 0, by unfold parseF openFile; rw [hc]⟩
        | some c =>
          obtain ⟨ls, ds, ht, hl⟩ := C20_every_text c
          obtain ⟨tr, r, e1, x1, x2, x3⟩ := C20_every_parse hc ht hl nil_reachable ⟨n, hp⟩
          obtain ⟨s', y1, y2⟩ := C20_document hc ht hl x1 hr
          rw [← x2] at y1
          exact ⟨s', y1⟩
      obtain ⟨s', m, hm⟩ := this
      exact ⟨s'.heap, m, by unfold readFileF; rw [if_neg hex, if_neg hdir, hm]⟩

theorem reads_det {w : World} {h : Heap} {search : List Str} {p : Str} {h1 h2 : Heap} {r1 r2 : Except PExc Nat} (x : ReadsFile w h search p h1 r1)
    (y : ReadsFile w h search p h2 r2) : h1 = h2 ∧ r1 = r2 := by
  obtain ⟨n, x⟩ := x
  obtain ⟨m, y⟩ := y
  have a := readFileF_mono x (Nat.le_max_left n m)
  have b := readFileF_mono y (Nat.le_max_right n m)
  rw [a] at b
  simpa using b

/-- The block is a root with these values and read-only marks. -/
def Holds (h : Heap) (b : Nat) (V : Str → Option Str) (R : Str → Bool) : Prop :=
  IsRoot h b ∧ ∀ k, getValue h b k = (match V k with | some v => .ok v | none => .error (.noSuch k)) ∧
    hasValue h b k = .ok (V k).isSome ∧ isReadOnly h b k = .ok (R k)

theorem Holds.of_same {h h' : Heap} (hr : Reachable h) (hr' : Reachable h') {b : Nat} {V : Str → Option Str} {R : Str → Bool} (hh : Holds h b V R)
    (he : h'[b]? = h[b]?) : Holds h' b V R := by
  obtain ⟨⟨blk, b1, b2⟩, hk⟩ := hh
  have b1' : h'[b]? = some blk := by rw [he, b1]
  refine ⟨⟨blk, b1', b2⟩, fun k => ?_⟩
  obtain ⟨k1, k2, k3⟩ := hk k
  rw [get_view hr.wf (.root b1 b2) b1] at k1
  rw [has_view hr.wf (.root b1 b2) b1] at k2
  refine ⟨?_, ?_, ?_⟩
  · rw [get_view hr'.wf (.root b1' b2) b1']; exact k1
  · rw [has_view hr'.wf (.root b1' b2) b1']; exact k2
  · simp only [isReadOnly, b1'] at k3 ⊢; simp only [isReadOnly, b1] at k3; exact k3

theorem mergeConfig_reachable {h : Heap} (hr : Reachable h) (b c : Nat) : Reachable (mergeConfig h b c).1 := by
  obtain ⟨os, rfl⟩ := hr
  exact ⟨os ++ [.mergeConfig b c], by simp [run, step]⟩

/-- Merging the result so far into the new config. -/
theorem merge_holds {h : Heap} (hr : Reachable h) {c r : Nat} (hne : c ≠ r) {V E : Str → Option Str} {R Q : Str → Bool} (hc : Holds h c E Q)
    (hh : Holds h r V R) (hno : ∀ k, (V k).isSome = true → Q k = false) :
    ∃ h', mergeConfig h c r = (h', .ok ()) ∧ Reachable h' ∧ Holds h' c (fun k => (V k).or (E k)) Q := by
  obtain ⟨blk, b1, b2⟩ := hc.1
  have hvc : ViewOf h c c [] := .root b1 b2
  obtain ⟨ks, e1, _, _, e2⟩ := C10_available_root hr hh.1
  obtain ⟨rblk, r1, r2⟩ := hh.1
  obtain ⟨done, rest, h', res, f1, f2, f3, f4, f5, f6, f7, f8⟩ := C11_merge hr hvc (.root r1 r2) hne e1 (fun k hk => (e2 k).1 hk)
  have hrest : rest = [] ∧ res = .ok () := by
    rcases f4 with f4 | ⟨bad, rest', cur, v, g1, g2, g3⟩
    · exact f4
    · exfalso
      have hb := (e2 bad).1 (by rw [f1, g1]; simp)
      have hb' : (V bad).isSome = true := by
        have := (hh.2 bad).2.1
        rw [hb] at this; simpa using this.symm
      have h1 := hno bad hb'
      have h2 := (hc.2 bad).2.2
      rw [List.nil_append] at g2
      rw [g2] at h2
      simp only [Except.ok.injEq] at h2
      rw [h1] at h2; cases h2
  obtain ⟨rfl, rfl⟩ := hrest
  rw [List.append_nil] at f1
  subst f1
  have hr' : Reachable h' := by have := mergeConfig_reachable hr c r; rw [f2] at this; exact this
  have hval : ∀ k, getValue h' c k = (match (V k).or (E k) with | some v => .ok v | none => .error (.noSuch k)) := by
    intro k
    cases hV : V k with
    | some v =>
      have hk : hasValue h r k = .ok true := by rw [(hh.2 k).2.1, hV]; rfl
      rw [f5 k ((e2 k).2 hk), (hh.2 k).1, hV]
      rfl
    | none =>
      have hk : hasValue h r k = .ok false := by rw [(hh.2 k).2.1, hV]; rfl
      have := (f7 c k hvc.lt (by
        rintro q hq ⟨x1, fk, ⟨p1, v1, g1⟩, ⟨p2, v2, g2⟩⟩
        obtain ⟨_, rfl⟩ := v1.unique v2
        have : q = k := List.append_cancel_left (g1 ▸ g2 : p2 ++ q = p2 ++ k)
        subst this
        have := (e2 q).1 hq
        rw [hk] at this; cases this)).1
      rw [this, (hc.2 k).1]
      simp
  have hroot : IsRoot h' c := by
    have hpr : Prims h h' := by
      have := mergeLoop_prims c r ks h
      unfold mergeConfig at f2
      rw [e1] at f2
      simp only at f2
      rw [f2] at this; exact this
    obtain ⟨B', x1, x2⟩ := (hvc.prims hpr).root_of
    exact ⟨B', x1, x2⟩
  refine ⟨h', f2, hr', hroot, fun k => ⟨hval k, ?_, by rw [f8, (hc.2 k).2.2]⟩⟩
  obtain ⟨B', x1, x2⟩ := hroot
  have h1 := hval k
  rw [get_view hr'.wf (.root x1 x2) x1] at h1
  rw [has_view hr'.wf (.root x1 x2) x1]
  simp only [List.nil_append, OMap.contains] at h1 ⊢
  cases hf : B'.store.find? k <;> cases ho : (V k).or (E k) <;> rw [hf, ho] at h1 <;> simp at h1 ⊢

/-! ### C29 -/

/-- The first file found; those before it do not exist. -/
theorem loop_first {w : World} {search : List Str} {name : Str} {merge : Bool} {p : Str} {ps : List Str} :
    ∀ (ds : List Str), filesIn w name ds = p :: ps → ∃ ds', filesIn w name ds' = ps ∧ IsFile w p = true ∧ p ≠ [] ∧
      ∀ n h r, searchLoopF n w search name merge ds h r =
        match readFileF n w h search p with
        | none => none
        | some (h1, .error e) => some (h1, .error e)
        | some (h1, .ok c) =>
          if !merge then some (h1, .ok c)
          else match r with
            | none => searchLoopF n w search name merge ds' h1 (some c)
            | some r =>
              match mergeConfig h1 c r with
              | (h2, .error e) => some (h2, .error (.config e))
              | (h2, .ok ()) => searchLoopF n w search name merge ds' h2 (some c) := by
  intro ds
  induction ds with
  | nil => intro h; simp [filesIn] at h
  | cons d ds ih =>
    intro hf
    by_cases hfile : IsFile w (d ++ c!"/" ++ name) = true
    · have hfi : filesIn w name (d :: ds) = (d ++ c!"/" ++ name) :: filesIn w name ds := by
        simp only [filesIn, List.map_cons]; rw [List.filter_cons_of_pos hfile]
      rw [hfi] at hf
      cases hf
      refine ⟨ds, rfl, hfile, by simp, fun n h r => ?_⟩
      obtain ⟨x1, x2⟩ := (isFile_iff (by simp)).2 hfile
      conv => lhs; unfold searchLoopF
      simp only
      rw [if_neg (by rw [x1, x2]; simp)]
      rfl
    · have hfi : filesIn w name (d :: ds) = filesIn w name ds := by
        simp only [filesIn, List.map_cons]; rw [List.filter_cons_of_neg hfile]
      rw [hfi] at hf
      obtain ⟨ds', e1, e2, e3, e4⟩ := ih hf
      refine ⟨ds', e1, e2, e3, fun n h r => ?_⟩
      rw [← e4]
      conv => lhs; unfold searchLoopF
      simp only
      rw [if_pos ?_]
      cases hx : fileExists w (d ++ c!"/" ++ name) <;> cases hy : fileIsDirectory w (d ++ c!"/" ++ name) <;> simp
      exact hfile ((isFile_iff (by simp)).1 ⟨hx, hy⟩)

theorem loop_none {w : World} {search : List Str} {name : Str} {merge : Bool} {n : Nat} :
    ∀ (ds : List Str), filesIn w name ds = [] → ∀ (h : Heap) (r : Option Nat),
      searchLoopF n w search name merge ds h r = some (h, match r with | none => .error (.notFound name) | some r => .ok r) := by
  intro ds
  induction ds with
  | nil => intro _ h r; cases r <;> rfl
  | cons d ds ih =>
    intro hf h r
    by_cases hfile : IsFile w (d ++ c!"/" ++ name) = true
    · simp only [filesIn, List.map_cons] at hf; rw [List.filter_cons_of_pos hfile] at hf; cases hf
    · have hfi : filesIn w name (d :: ds) = filesIn w name ds := by
        simp only [filesIn, List.map_cons]; rw [List.filter_cons_of_neg hfile]
      rw [hfi] at hf
      rw [← ih hf h r]
      conv => lhs; unfold searchLoopF
      simp only
      rw [if_pos ?_]
      cases hx : fileExists w (d ++ c!"/" ++ name) <;> cases hy : fileIsDirectory w (d ++ c!"/" ++ name) <;> simp
      exact hfile ((isFile_iff (by simp)).1 ⟨hx, hy⟩)

/-- Reading the files of a prefix of the search. -/
theorem loop_prefix {w : World} {search : List Str} {name : Str} : ∀ (ps qs : List Str) (ds : List Str), filesIn w name ds = ps ++ qs →
    ∀ (es : List Env) (h : Heap) (r : Nat) (V : Str → Option Str) (R : Str → Bool), Reachable h → Holds h r V R → es.length = ps.length →
    (∀ q ∈ ps.zip es, FileShows w search q.1 q.2) → NoConflict es → (∀ e ∈ es, ∀ k, (V k).isSome = true → e.ro k = false) →
    ∃ n0 h' b ds', filesIn w name ds' = qs ∧ Reachable h' ∧ Holds h' b (fun k => (V k).or (firstVal es k)) (((es.getLast?).map Env.ro).getD R) ∧
      ∀ n, n0 ≤ n → searchLoopF n w search name true ds h (some r) = searchLoopF n w search name true ds' h' (some b) := by
  intro ps
  induction ps with
  | nil =>
    intro qs ds hds es h r V R hr hh hlen _ _ _
    have : es = [] := List.length_eq_zero_iff.1 hlen
    subst this
    exact ⟨0, h, r, ds, hds, hr, by simpa [firstVal] using hh, fun _ _ => rfl⟩
  | cons p ps ih =>
    intro qs ds hds es h r V R hr hh hlen hsh hnc hno
    cases es with
    | nil => simp at hlen
    | cons e es =>
      have he : FileShows w search p e := hsh (p, e) (by simp)
      obtain ⟨h1, ⟨n1, g1⟩, g2, g3, g4, g5⟩ := reads_anywhere he hr
      have hrlt : r < h.length := by
        obtain ⟨blk, b1, _⟩ := hh.1
        exact (List.getElem?_eq_some_iff.1 b1).1
      have hh1 : Holds h1 r V R := hh.of_same hr g3 (g5 r hrlt)
      have hE : Holds h1 h.length e.val e.ro := ⟨g4, fun k => ⟨(g2 k).1, (g2 k).2.1, (g2 k).2.2.1⟩⟩
      obtain ⟨h2, m1, m2, m3⟩ := merge_holds g3 (by omega) hE hh1 (fun k hk => hno e (by simp) k hk)
      obtain ⟨ds1, f1, f2, f3, f4⟩ := loop_first (search := search) (merge := true) ds hds
      obtain ⟨n2, h', b, ds', l1, l2, l3, l4⟩ := ih qs ds1 f1 es h2 h.length _ _ m2 m3 (by simpa using hlen)
        (fun q hq => hsh q (by simp [hq])) (List.pairwise_cons.1 hnc).2 (by
          intro x hx k hk
          cases hV : V k with
          | some v => exact hno x (by simp [hx]) k (by rw [hV]; rfl)
          | none =>
            rw [hV] at hk
            exact (List.pairwise_cons.1 hnc).1 x hx k (by simpa using hk))
      refine ⟨max n1 n2, h', b, ds', l1, l2, ?_, ?_⟩
      · have : ((e :: es).getLast?.map Env.ro).getD R = (es.getLast?.map Env.ro).getD e.ro := by
          cases es with
          | nil => rfl
          | cons a es =>
            rw [List.getLast?_cons_cons]
            cases hx : (a :: es).getLast? with
            | none => simp at hx
            | some y => rfl
        rw [this]
        have hfun : (fun k => ((V k).or (e.val k)).or (firstVal es k)) = fun k => (V k).or (firstVal (e :: es) k) := by
          funext k
          simp only [firstVal, List.findSome?_cons]
          cases V k <;> cases e.val k <;> rfl
        rw [← hfun]; exact l3
      · intro n hn
        rw [f4, readFileF_mono g1 (by omega)]
        simp only [Bool.not_true, Bool.false_eq_true, if_false, m1]
        exact l4 n (by omega)

/-- The same from the start of the search. -/
theorem search_prefix {w : World} {search : List Str} {name : Str} {p : Str} {ps qs ds : List Str} (hds : filesIn w name ds = p :: ps ++ qs)
    {e : Env} {es : List Env} {h : Heap} (hr : Reachable h) (hlen : (e :: es).length = (p :: ps).length)
    (hsh : ∀ q ∈ (p :: ps).zip (e :: es), FileShows w search q.1 q.2) (hnc : NoConflict (e :: es)) :
    ∃ n0 h' b ds', filesIn w name ds' = qs ∧ Reachable h' ∧
      Holds h' b (firstVal (e :: es)) ((es.getLast?.map Env.ro).getD e.ro) ∧
      ∀ n, n0 ≤ n → searchLoopF n w search name true ds h none = searchLoopF n w search name true ds' h' (some b) := by
  have he : FileShows w search p e := hsh (p, e) (by simp)
  obtain ⟨h1, ⟨n1, g1⟩, g2, g3, g4, g5⟩ := reads_anywhere he hr
  have hE : Holds h1 h.length e.val e.ro := ⟨g4, fun k => ⟨(g2 k).1, (g2 k).2.1, (g2 k).2.2.1⟩⟩
  obtain ⟨ds1, f1, f2, f3, f4⟩ := loop_first (search := search) (merge := true) ds hds
  obtain ⟨n2, h', b, ds', l1, l2, l3, l4⟩ := loop_prefix ps qs ds1 f1 es h1 h.length _ _ g3 hE (by simpa using hlen)
    (fun q hq => hsh q (by simp [hq])) (List.pairwise_cons.1 hnc).2 (fun x hx k hk => (List.pairwise_cons.1 hnc).1 x hx k hk)
  refine ⟨max n1 n2, h', b, ds', l1, l2, ?_, ?_⟩
  · have hfun : (fun k => (e.val k).or (firstVal es k)) = firstVal (e :: es) := by
      funext k
      simp only [firstVal, List.findSome?_cons]
      cases e.val k <;> rfl
    rw [← hfun]; exact l3
  · intro n hn
    rw [f4, readFileF_mono g1 (by omega)]
    simp only [Bool.not_true, Bool.false_eq_true, if_false]
    exact l4 n (by omega)

/-- C29, merging: every file of that name along the search path (the current directory last) is read, and a
    key has the value it has in the first file that defines it.  Read-only are the keys that the last file
    protects. -/
theorem C29_merge {w : World} {name app version pre : Str} (hname : fileIsFullPath name = false) {es : List Env} (hne : es ≠ [])
    (hlen : es.length = (filesIn w name (configFilePaths w app version pre ++ [c!"."])).length)
    (hes : ∀ q ∈ (filesIn w name (configFilePaths w app version pre ++ [c!"."])).zip es, FileShows w (configFilePaths w app version pre) q.1 q.2)
    (hnc : NoConflict es) {h : Heap} (hr : Reachable h) :
    ∃ h' b, ReadsConfig w h name app version pre true h' (.ok b) ∧ Reachable h' ∧ IsRoot h' b ∧
      ∀ k, getValue h' b k = (match firstVal es k with | some v => .ok v | none => .error (.noSuch k)) ∧
        hasValue h' b k = .ok (firstVal es k).isSome ∧
        ∀ e, es.getLast? = some e → isReadOnly h' b k = .ok (e.ro k) := by
  cases es with
  | nil => exact absurd rfl hne
  | cons e es =>
    cases hf : filesIn w name (configFilePaths w app version pre ++ [c!"."]) with
    | nil => rw [hf] at hlen; simp at hlen
    | cons p ps =>
      rw [hf] at hlen hes
      obtain ⟨n, h', b, ds', l1, l2, l3, l4⟩ := search_prefix (qs := []) (by rw [hf]; simp) hr hlen hes hnc
      refine ⟨h', b, ⟨n, ?_⟩, l2, l3.1, fun k => ⟨(l3.2 k).1, (l3.2 k).2.1, ?_⟩⟩
      · unfold readConfigF
        simp only [hname, Bool.false_eq_true, if_false]
        rw [l4 n (Nat.le_refl _), loop_none ds' l1]
      · intro x hx
        rw [(l3.2 k).2.2]
        cases es with
        | nil => simp at hx; subst hx; rfl
        | cons a es =>
          rw [List.getLast?_cons_cons] at hx
          rw [hx]; rfl

/-- A file that protects a key which an earlier file defines makes the call throw for such a key. -/
theorem C29_conflict_throws {w : World} {name app version pre : Str} (hname : fileIsFullPath name = false) {ps qs : List Str} {p : Str}
    {es : List Env} {e : Env} (hf : filesIn w name (configFilePaths w app version pre ++ [c!"."]) = ps ++ p :: qs)
    (hlen : es.length = ps.length) (hes : ∀ q ∈ ps.zip es, FileShows w (configFilePaths w app version pre) q.1 q.2) (hnc : NoConflict es)
    (he : FileShows w (configFilePaths w app version pre) p e) {k0 : Str} (hk : (firstVal es k0).isSome = true) (hro : e.ro k0 = true)
    {h : Heap} (hr : Reachable h) :
    ∃ h' k cur v, ReadsConfig w h name app version pre true h' (.error (.config (.setRO k cur v))) ∧ (firstVal es k).isSome = true ∧
      e.ro k = true := by
  cases es with
  | nil => simp [firstVal] at hk
  | cons e1 es =>
    cases ps with
    | nil => simp at hlen
    | cons p1 ps =>
      obtain ⟨n, h', b, ds', l1, l2, l3, l4⟩ := search_prefix (qs := p :: qs) hf hr hlen hes hnc
      obtain ⟨h1, ⟨n1, g1⟩, g2, g3, g4, g5⟩ := reads_anywhere he l2
      obtain ⟨ds1, f1, f2, f3, f4⟩ := loop_first (search := configFilePaths w app version pre) (merge := true) ds' l1
      have hblt : b < h'.length := by
        obtain ⟨blk, b1, _⟩ := l3.1
        exact (List.getElem?_eq_some_iff.1 b1).1
      have hh1 := l3.of_same l2 g3 (g5 b hblt)
      obtain ⟨ks, x1, _, _, x2⟩ := C10_available_root g3 hh1.1
      obtain ⟨blk, b1, b2⟩ := g4
      obtain ⟨rblk, r1, r2⟩ := hh1.1
      obtain ⟨done, rest, h2, res, y1, y2, y3, y4, _, _, _, y8⟩ :=
        C11_merge g3 (.root b1 b2) (.root r1 r2) (by omega) x1 (fun k hk => (x2 k).1 hk)
      have hthrow : ∃ k cur v, res = .error (.setRO k cur v) ∧ (firstVal (e1 :: es) k).isSome = true ∧ e.ro k = true := by
        rcases y4 with ⟨rfl, rfl⟩ | ⟨bad, rest', cur, v, z1, z2, z3⟩
        · exfalso
          have hin : k0 ∈ done := by
            rw [List.append_nil] at y1
            rw [← y1, x2, (hh1.2 k0).2.1, hk]
          have := y3 k0 hin
          rw [List.nil_append, (g2 k0).2.2.1, hro] at this
          cases this
        · refine ⟨bad, cur, v, by simpa using z3, ?_, ?_⟩
          · have := (x2 bad).1 (by rw [y1, z1]; simp)
            rw [(hh1.2 bad).2.1] at this
            simpa using this
          · rw [List.nil_append, (g2 bad).2.2.1] at z2
            simpa using z2
      obtain ⟨k, cur, v, rfl, t2, t3⟩ := hthrow
      refine ⟨h2, k, cur, v, ⟨max n n1, ?_⟩, t2, t3⟩
      unfold readConfigF
      simp only [hname, Bool.false_eq_true, if_false]
      rw [l4 _ (Nat.le_max_left _ _), f4, readFileF_mono g1 (Nat.le_max_right _ _)]
      simp only [Bool.not_true, Bool.false_eq_true, if_false, y2]

/-- A file that cannot be read (after those before it were) makes the call throw the same exception. -/
theorem C29_bad_file_throws {w : World} {name app version pre : Str} (hname : fileIsFullPath name = false) {ps qs : List Str} {p : Str}
    {es : List Env} {x : PExc} {h0 : Heap} (hf : filesIn w name (configFilePaths w app version pre ++ [c!"."]) = ps ++ p :: qs)
    (hlen : es.length = ps.length) (hes : ∀ q ∈ ps.zip es, FileShows w (configFilePaths w app version pre) q.1 q.2) (hnc : NoConflict es)
    (he : ReadsFile w [] (configFilePaths w app version pre) p h0 (.error x)) {h : Heap} (hr : Reachable h) :
    ∃ h', ReadsConfig w h name app version pre true h' (.error x) := by
  cases es with
  | nil =>
    have : ps = [] := List.length_eq_zero_iff.1 hlen.symm
    subst this
    obtain ⟨h', n, g1⟩ := throws_anywhere he hr
    obtain ⟨ds1, f1, f2, f3, f4⟩ := loop_first (search := configFilePaths w app version pre) (merge := true) _ hf
    refine ⟨h', n, ?_⟩
    unfold readConfigF
    simp only [hname, Bool.false_eq_true, if_false]
    rw [f4, g1]
  | cons e1 es =>
    cases ps with
    | nil => simp at hlen
    | cons p1 ps =>
      obtain ⟨n, h', b, ds', l1, l2, l3, l4⟩ := search_prefix (qs := p :: qs) hf hr hlen hes hnc
      obtain ⟨h1, n1, g1⟩ := throws_anywhere he l2
      obtain ⟨ds1, f1, f2, f3, f4⟩ := loop_first (search := configFilePaths w app version pre) (merge := true) ds' l1
      refine ⟨h1, max n n1, ?_⟩
      unfold readConfigF
      simp only [hname, Bool.false_eq_true, if_false]
      rw [l4 _ (Nat.le_max_left _ _), f4, readFileF_mono g1 (Nat.le_max_right _ _)]

/-- C29, not merging: only the first file found matters. -/
theorem C29_first_only {w : World} {name app version pre : Str} (hname : fileIsFullPath name = false) {p : Str} {ps : List Str}
    (hf : filesIn w name (configFilePaths w app version pre ++ [c!"."]) = p :: ps) {h h' : Heap} {r : Except PExc Nat} :
    ReadsConfig w h name app version pre false h' r ↔ ReadsFile w h (configFilePaths w app version pre) p h' r := by
  obtain ⟨ds1, f1, f2, f3, f4⟩ := loop_first (search := configFilePaths w app version pre) (merge := false) _ hf
  have : ∀ n, readConfigF n w h name app version pre false = readFileF n w h (configFilePaths w app version pre) p := by
    intro n
    unfold readConfigF
    simp only [hname, Bool.false_eq_true, if_false]
    rw [f4]
    cases readFileF n w h (configFilePaths w app version pre) p with
    | none => rfl
    | some q =>
      obtain ⟨h1, o⟩ := q
      cases o <;> rfl
  unfold ReadsConfig ReadsFile
  simp only [this]

/-- C29: an absolute name is read as it is. -/
theorem C29_absolute {w : World} {name app version pre : Str} (hname : fileIsFullPath name = true) {merge : Bool} {h h' : Heap}
    {r : Except PExc Nat} :
    ReadsConfig w h name app version pre merge h' r ↔ ReadsFile w h (configFilePaths w app version pre) name h' r := by
  have : ∀ n, readConfigF n w h name app version pre merge = readFileF n w h (configFilePaths w app version pre) name := by
    intro n
    unfold readConfigF
    simp only [hname, if_true]
  unfold ReadsConfig ReadsFile
  simp only [this]

/-- C29: without a file of that name anywhere the call throws. -/
theorem C29_not_found {w : World} {name app version pre : Str} (hname : fileIsFullPath name = false) {merge : Bool}
    (hf : filesIn w name (configFilePaths w app version pre ++ [c!"."]) = []) (h : Heap) :
    ReadsConfig w h name app version pre merge h (.error (.notFound name)) := by
  refine ⟨0, ?_⟩
  unfold readConfigF
  simp only [hname, Bool.false_eq_true, if_false]
  rw [loop_none _ hf]

/-! A concrete search: two files, the first wins where both define a key. -/

def twoWorld : World :=
  { env := fun k => if k = c!"KWIVER_CONFIG_PATH" then some (c!"/a:/n") else if k = c!"HOME" then some (c!"/h") else none
    content := fun f => if f = c!"/a/x.cfg" then some (c!"one[RO] = 1\ntwo = 2\n")
      else if f = c!"/h/.config/app/x.cfg" then some (c!"two = 22\nsix = 6\n") else none
    readable := fun f => f == c!"/a/x.cfg" || f == c!"/h/.config/app/x.cfg" || f == c!"/n/x.cfg"
    isDir := fun f => f == c!"/n/x.cfg" }

theorem two_files : filesIn twoWorld (c!"x.cfg") (configFilePaths twoWorld (c!"app") (c!"1.0") [] ++ [c!"."]) =
    [c!"/a/x.cfg", c!"/h/.config/app/x.cfg"] := by decide +kernel

theorem readFile_some {n : Nat} {w : World} {h : Heap} {search : List Str} {f : Str} (hs : (readFileF n w h search f).isSome = true) :
    ReadsFile w h search f ((readFileF n w h search f).get hs).1 ((readFileF n w h search f).get hs).2 := ⟨n, (Option.some_get hs).symm⟩

theorem readConfig_some {n : Nat} {w : World} {h : Heap} {a b c d : Str} {m : Bool} (hs : (readConfigF n w h a b c d m).isSome = true) :
    ReadsConfig w h a b c d m ((readConfigF n w h a b c d m).get hs).1 ((readConfigF n w h a b c d m).get hs).2 := ⟨n, (Option.some_get hs).symm⟩

theorem twoBoth_some : (readConfigF 20 twoWorld [] (c!"x.cfg") (c!"app") (c!"1.0") [] true).isSome = true := by decide +kernel

theorem two_reads : ∃ h' b, ReadsConfig twoWorld [] (c!"x.cfg") (c!"app") (c!"1.0") [] true h' (.ok b) ∧
    getValue h' b (c!"one") = .ok (c!"1") ∧ getValue h' b (c!"two") = .ok (c!"2") ∧ getValue h' b (c!"six") = .ok (c!"6") ∧
    isReadOnly h' b (c!"one") = .ok false := by
  have h := readConfig_some twoBoth_some
  have e : ((readConfigF 20 twoWorld [] (c!"x.cfg") (c!"app") (c!"1.0") [] true).get twoBoth_some).2 = .ok 1 := by decide +kernel
  rw [e] at h
  exact ⟨_, 1, h, by decide +kernel⟩

/-- The hypotheses of C29_merge can be met. -/
theorem shows_of_reads {w : World} {search : List Str} {p : Str} {h' : Heap} {b : Nat} (hr : ReadsFile w [] search p h' (.ok b)) :
    ∃ e, FileShows w search p e := by
  obtain ⟨n, hn⟩ := id hr
  unfold readFileF at hn
  split at hn
  · cases hn
  split at hn
  · cases hn
  cases hp : parseF n w (fresh [] search) p with
  | none => rw [hp] at hn; cases hn
  | some q =>
    obtain ⟨s, o⟩ := q
    rw [hp] at hn
    cases o with
    | error e => cases hn
    | ok u =>
      cases hn
      cases hc : w.content p with
      | none =>
        exfalso
        unfold parseF openFile at hp
        rw [hc] at hp
        cases hp
      | some c =>
        obtain ⟨ls, ds, ht, hl⟩ := C20_every_text c
        obtain ⟨tr, r, e1, x1, x2, x3⟩ := C20_every_parse hc ht hl nil_reachable ⟨n, hp⟩
        exact ⟨e1, _, _, hr, x3⟩

theorem twoA_some : (readFileF 20 twoWorld [] (configFilePaths twoWorld (c!"app") (c!"1.0") []) (c!"/a/x.cfg")).isSome = true := by decide +kernel
theorem twoB_some : (readFileF 20 twoWorld [] (configFilePaths twoWorld (c!"app") (c!"1.0") []) (c!"/h/.config/app/x.cfg")).isSome = true := by
  decide +kernel

theorem two_first : ∃ e, FileShows twoWorld (configFilePaths twoWorld (c!"app") (c!"1.0") []) (c!"/a/x.cfg") e ∧ e.ro (c!"two") = false ∧
    e.val (c!"two") = some (c!"2") := by
  have h := readFile_some twoA_some
  have e : ((readFileF 20 twoWorld [] (configFilePaths twoWorld (c!"app") (c!"1.0") []) (c!"/a/x.cfg")).get twoA_some).2 = .ok 0 := by decide +kernel
  rw [e] at h
  obtain ⟨x, h0, b, r1, r2⟩ := shows_of_reads h
  obtain ⟨rfl, hb⟩ := reads_det h r1
  cases hb
  refine ⟨x, ⟨_, _, r1, r2⟩, ?_, ?_⟩
  · have := (r2 (c!"two")).2.2.1
    rw [show isReadOnly _ 0 (c!"two") = .ok false by decide +kernel] at this
    simpa using this.symm
  · have := (r2 (c!"two")).1
    rw [show getValue _ 0 (c!"two") = .ok (c!"2") by decide +kernel] at this
    cases hv : x.val (c!"two") with
    | none => rw [hv] at this; cases this
    | some v => rw [hv] at this; simp at this; rw [this]

theorem two_second : ∃ e, FileShows twoWorld (configFilePaths twoWorld (c!"app") (c!"1.0") []) (c!"/h/.config/app/x.cfg") e ∧ ∀ k, e.ro k = false := by
  have h := readFile_some twoB_some
  have e : ((readFileF 20 twoWorld [] (configFilePaths twoWorld (c!"app") (c!"1.0") []) (c!"/h/.config/app/x.cfg")).get twoB_some).2 = .ok 0 := by
    decide +kernel
  rw [e] at h
  obtain ⟨x, h0, b, r1, r2⟩ := shows_of_reads h
  obtain ⟨rfl, hb⟩ := reads_det h r1
  cases hb
  refine ⟨x, ⟨_, _, r1, r2⟩, fun k => ?_⟩
  have := (r2 k).2.2.1
  have hro : (((readFileF 20 twoWorld [] (configFilePaths twoWorld (c!"app") (c!"1.0") []) (c!"/h/.config/app/x.cfg")).get twoB_some).1[0]?).map (·.ro) = some [] := by
    decide +kernel
  unfold isReadOnly at this
  cases hx : ((readFileF 20 twoWorld [] (configFilePaths twoWorld (c!"app") (c!"1.0") []) (c!"/h/.config/app/x.cfg")).get twoB_some).1[0]? with
  | none => rw [hx] at hro; cases hro
  | some blk =>
    rw [hx] at hro this
    simp only [Option.map_some, Option.some.injEq] at hro
    simp only [hro] at this
    simpa using this.symm

/-- C29_merge applies to the two files. -/
example : ∃ es, es ≠ [] ∧ NoConflict es ∧ es.length = (filesIn twoWorld (c!"x.cfg") (configFilePaths twoWorld (c!"app") (c!"1.0") [] ++ [c!"."])).length ∧
    (∀ q ∈ (filesIn twoWorld (c!"x.cfg") (configFilePaths twoWorld (c!"app") (c!"1.0") [] ++ [c!"."])).zip es,
      FileShows twoWorld (configFilePaths twoWorld (c!"app") (c!"1.0") []) q.1 q.2) ∧ firstVal es (c!"two") = some (c!"2") := by
  obtain ⟨a, ha, _, hv⟩ := two_first
  obtain ⟨b, hb, hro⟩ := two_second
  refine ⟨[a, b], by simp, by simp [NoConflict, hro], by rw [two_files]; rfl, ?_, by simp [firstVal, hv]⟩
  rw [two_files]
  intro q hq
  simp at hq
  rcases hq with rfl | rfl
  · exact ha
  · exact hb

/-! ### C82: protection survives reading -/

/-- C82: a key that a configuration file protects is protected in the config read. -/
def C82_statement : Prop := ∀ (w : World) (name app version pre : Str) (merge : Bool) (h h' : Heap) (b : Nat) (p : Str) (e : Env) (k : Str),
  Reachable h → ReadsConfig w h name app version pre merge h' (.ok b) →
  (filesIn w name (configFilePaths w app version pre ++ [c!"."])).head? = some p → FileShows w (configFilePaths w app version pre) p e →
  e.ro k = true → isReadOnly h' b k = .ok true

/-- It is false when merging: the marks of all files but the last are dropped. -/
theorem C82_refuted : ¬ C82_statement := by
  intro hst
  obtain ⟨h', b, r1, _, _, _, r5⟩ := two_reads
  have h := readFile_some twoA_some
  have e : ((readFileF 20 twoWorld [] (configFilePaths twoWorld (c!"app") (c!"1.0") []) (c!"/a/x.cfg")).get twoA_some).2 = .ok 0 := by decide +kernel
  rw [e] at h
  obtain ⟨x, h0, b0, x1, x2⟩ := shows_of_reads h
  obtain ⟨rfl, hb⟩ := reads_det h x1
  cases hb
  have hro : x.ro (c!"one") = true := by
    have := (x2 (c!"one")).2.2.1
    rw [show isReadOnly _ 0 (c!"one") = .ok true by decide +kernel] at this
    simpa using this.symm
  have := hst twoWorld (c!"x.cfg") (c!"app") (c!"1.0") [] true [] h' b (c!"/a/x.cfg") x (c!"one") nil_reachable r1 (by rw [two_files]; rfl)
    ⟨_, _, x1, x2⟩ hro
  rw [r5] at this
  cases this

/-- It holds without merging. -/
theorem C82_protection_partial {w : World} {name app version pre : Str} (hname : fileIsFullPath name = false) {h h' : Heap} {b : Nat} {p : Str}
    {ps : List Str} {e : Env} {k : Str} (hr : Reachable h) (hread : ReadsConfig w h name app version pre false h' (.ok b))
    (hp : filesIn w name (configFilePaths w app version pre ++ [c!"."]) = p :: ps)
    (he : FileShows w (configFilePaths w app version pre) p e) : isReadOnly h' b k = .ok (e.ro k) := by
  obtain ⟨h1, g1, g2, _⟩ := reads_anywhere he hr
  obtain ⟨rfl, hb⟩ := reads_det ((C29_first_only hname hp).1 hread) g1
  cases hb
  exact (g2 k).2.2.1

/-! ### C83: the search order -/

/-- The order of the directories. -/
theorem C83_search_order (w : World) (app version pre : Str) :
    (∃ rest, configFilePaths w app version pre = getPath w (c!"KWIVER_CONFIG_PATH") ++ rest) ∧
    (∀ base ∈ getPath w (c!"XDG_CONFIG_HOME") ++ [c!"/etc/xdg", c!"/etc"], ∃ l r, configFilePaths w app version pre =
      l ++ (if version = [] then [base ++ c!"/" ++ app] else [base ++ c!"/" ++ app ++ c!"/" ++ version, base ++ c!"/" ++ app]) ++ r) ∧
    (∀ home, w.env (c!"HOME") = some home → home ≠ [] → ∃ l m r, configFilePaths w app version pre =
      l ++ (home ++ c!"/.config/" ++ app) :: (m ++ (c!"/etc/" ++ app) :: r) ∧
      (c!"/usr/local/share/" ++ app ++ c!"/config") ∈ r ∧ (c!"/usr/share/" ++ app ++ c!"/config") ∈ r) ∧
    (pre ≠ [] → pre ≠ c!"/usr" → pre ≠ c!"/usr/local" →
      ∃ l, configFilePaths w app version pre = l ++ [pre ++ c!"/share/config", pre ++ c!"/config"]) := by
  have ap : ∀ a b : List Str, applicationPaths (a ++ b) app version = applicationPaths a app version ++ applicationPaths b app version := by
    intro a b; simp only [applicationPaths, List.flatMap_append]
  have one : ∀ base : Str, applicationPaths [base] app version =
      if version = [] then [base ++ c!"/" ++ app] else [base ++ c!"/" ++ app ++ c!"/" ++ version, base ++ c!"/" ++ app] := by
    intro base
    by_cases hv : version = [] <;> simp [applicationPaths, hv]
  have last : ∀ base : Str, ∃ l, applicationPaths [base] app version = l ++ [base ++ c!"/" ++ app] := by
    intro base
    by_cases hv : version = []
    · exact ⟨[], by simp [applicationPaths, hv]⟩
    · exact ⟨[base ++ c!"/" ++ app ++ c!"/" ++ version], by simp [applicationPaths, hv]⟩
  refine ⟨⟨_, by unfold configFilePaths; simp only [List.append_assoc]; rfl⟩, ?_, ?_, ?_⟩
  · intro base hb
    have shape : ∃ H rest, configFilePaths w app version pre = getPath w (c!"KWIVER_CONFIG_PATH") ++
        applicationPaths (getPath w (c!"XDG_CONFIG_HOME") ++ H ++ [c!"/etc/xdg", c!"/etc"]) app version ++ rest :=
      ⟨_, _, by unfold configFilePaths; exact List.append_assoc _ _ _⟩
    obtain ⟨H, rest, shape⟩ := shape
    have : ∃ l r, getPath w (c!"XDG_CONFIG_HOME") ++ H ++ [c!"/etc/xdg", c!"/etc"] = l ++ [base] ++ r := by
      rcases List.mem_append.1 hb with hb | hb
      · obtain ⟨l, r, e⟩ := List.append_of_mem hb
        exact ⟨l, r ++ H ++ [c!"/etc/xdg", c!"/etc"], by rw [e]; simp⟩
      · obtain ⟨l, r, e⟩ := List.append_of_mem hb
        exact ⟨getPath w (c!"XDG_CONFIG_HOME") ++ H ++ l, r, by rw [e]; simp⟩
    obtain ⟨l, r, e⟩ := this
    rw [shape, e, ap, ap, one]
    exact ⟨getPath w (c!"KWIVER_CONFIG_PATH") ++ applicationPaths l app version, applicationPaths r app version ++ rest, by simp only [List.append_assoc]⟩
  · intro home he hne
    unfold configFilePaths
    simp only [he, if_pos hne, ap]
    rw [show [c!"/etc/xdg", c!"/etc"] = [c!"/etc/xdg"] ++ [c!"/etc"] by rfl, show [c!"/usr/local/share", c!"/usr/share"] = [c!"/usr/local/share"] ++ [c!"/usr/share"] by rfl]
    simp only [ap]
    obtain ⟨l1, e1⟩ := last (home ++ c!"/.config")
    obtain ⟨l2, e2⟩ := last (c!"/etc")
    obtain ⟨l3, e3⟩ := last (c!"/usr/local/share")
    obtain ⟨l4, e4⟩ := last (c!"/usr/share")
    rw [e1, e2, e3, e4]
    refine ⟨getPath w (c!"KWIVER_CONFIG_PATH") ++ applicationPaths (getPath w (c!"XDG_CONFIG_HOME")) app version ++ l1,
      applicationPaths [c!"/etc/xdg"] app version ++ l2, _, by simp only [List.append_assoc, List.cons_append, List.nil_append]; rfl, ?_, ?_⟩
    · simp
    · simp
  · intro h1 h2 h3
    have hn : nonstandardPrefix pre = true := by simp [nonstandardPrefix, h1, h2, h3]
    unfold configFilePaths
    simp only [hn, if_true]
    exact ⟨_, rfl⟩

example : configFilePaths twoWorld (c!"app") (c!"1.0") (c!"/opt") =
    [c!"/a", c!"/n", c!"/h/.config/app/1.0", c!"/h/.config/app", c!"/etc/xdg/app/1.0", c!"/etc/xdg/app", c!"/etc/app/1.0", c!"/etc/app",
     c!"/usr/local/share/app/1.0/config", c!"/usr/local/share/app/config", c!"/usr/share/app/1.0/config", c!"/usr/share/app/config",
     c!"/opt/share/app/1.0/config", c!"/opt/share/app/config", c!"/opt/share/config", c!"/opt/config"] := by decide +kernel

/-! ### C84, C85: write_config_file -/

/-- The file system in which the directory of the file exists, as write_config_file leaves it. -/
def Prepared (d : Disk) (w : World) (path : Str) (w1 : World) : Prop :=
  let parent := getFilenamePath w (collapseFullPath w path)
  if w.isDir parent = true ∧ parent ≠ [] then w1 = w else d.makeDir w parent = some w1

/-- C84: what write_config_file has written without an exception reads back. -/
def C84_statement : Prop := ∀ (d : Disk) (w w' : World) (h : Heap) (b : Nat) (path : Str) (search : List Str), Reachable h → IsRoot h b →
  (∀ k, hasValue h b k = .ok true → PlainKey k) → (∀ k v, getValue h b k = .ok v → PlainValue v) →
  (∀ k f n, getLocation h b k = .ok (some (f, n)) → '\n' ∉ f) → writeConfigFile d w h b path = (w', .ok ()) →
  ∃ h' b', ReadsFile w' [] search path h' (.ok b') ∧ ∀ k, getValue h' b' k = getValue h b k

def roDisk : Disk := { canWrite := fun _ _ => false, makeDir := fun w _ => some w }

theorem roDisk_writes : (writeConfigFile roDisk {} writeDemo 0 (c!"/r/w.cfg")).2 = .ok () ∧
    (writeConfigFile roDisk {} writeDemo 0 (c!"/r/w.cfg")).1.readable (c!"/r/w.cfg") = false := by decide +kernel

theorem writeDemo_plain : (∀ k, hasValue writeDemo 0 k = .ok true → PlainKey k) ∧ (∀ k v, getValue writeDemo 0 k = .ok v → PlainValue v) ∧
    (∀ k f n, getLocation writeDemo 0 k = .ok (some (f, n)) → '\n' ∉ f) := by
  refine ⟨?_, ?_, ?_⟩
  · intro k hk
    rcases writeDemo_keys k hk with rfl | rfl | rfl <;> exact plainKey_of (by decide +kernel)
  · intro k v hv
    have hk : hasValue writeDemo 0 k = .ok true := by
      obtain ⟨blk, b1, b2⟩ := writeDemo_root
      have hr : Reachable writeDemo := ⟨_, rfl⟩
      rw [get_view hr.wf (.root b1 b2) b1] at hv
      rw [has_view hr.wf (.root b1 b2) b1]
      simp only [OMap.contains]
      cases hf : blk.store.find? ([] ++ k) with
      | none => rw [hf] at hv; cases hv
      | some x => rfl
    rcases writeDemo_keys k hk with rfl | rfl | rfl
    · have e : getValue writeDemo 0 (c!"alpha") = .ok (c!"a=b") := by decide +kernel
      rw [e] at hv; cases hv; unfold PlainValue; decide
    · have e : getValue writeDemo 0 (c!"beta:x") = .ok (c!"7 up") := by decide +kernel
      rw [e] at hv; cases hv; unfold PlainValue; decide
    · have e : getValue writeDemo 0 (c!"beta:y") = .ok [] := by decide +kernel
      rw [e] at hv; cases hv; unfold PlainValue; decide
  · intro k f n hl
    have e : (writeDemo[0]?).map (·.defs) = some [(c!"beta:x", (c!"/m.cfg", 4))] := by decide +kernel
    unfold getLocation at hl
    cases hb : writeDemo[0]? with
    | none => rw [hb] at hl; cases hl
    | some blk =>
      rw [hb] at hl e
      simp only [Option.map_some, Option.some.injEq] at e
      simp only [e] at hl
      unfold OMap.find? at hl
      split at hl
      · cases hl; decide
      · simp [OMap.find?] at hl

/-- It is false: a file that cannot be opened for writing goes unnoticed. -/
theorem C84_refuted : ¬ C84_statement := by
  intro hst
  obtain ⟨h1, h2, h3⟩ := writeDemo_plain
  obtain ⟨r1, r2⟩ := roDisk_writes
  obtain ⟨h', b', ⟨n, hn⟩, _⟩ := hst roDisk {} (writeConfigFile roDisk {} writeDemo 0 (c!"/r/w.cfg")).1 writeDemo 0 (c!"/r/w.cfg") []
    ⟨_, rfl⟩ writeDemo_root h1 h2 h3 (by rw [← r1])
  unfold readFileF fileExists at hn
  rw [r2] at hn
  simp at hn

/-- It holds when the file can be opened for writing and is not a directory. -/
theorem C84_write_read_partial {d : Disk} {w w1 : World} {h : Heap} (hr : Reachable h) {b : Nat} (hb : IsRoot h b)
    (hkeys : ∀ k, hasValue h b k = .ok true → PlainKey k) (hvals : ∀ k v, getValue h b k = .ok v → PlainValue v)
    (hlocs : ∀ k f n, getLocation h b k = .ok (some (f, n)) → '\n' ∉ f) {k0 : Str} (hne : hasValue h b k0 = .ok true)
    {path : Str} (hpath : path ≠ []) (hdir : w.isDir path = false) (hprep : Prepared d w path w1) (hw1 : w1.isDir path = false)
    (hcan : d.canWrite w1 path = true) (search : List Str) {h0 : Heap} (hr0 : Reachable h0) :
    ∃ w' h' b', writeConfigFile d w h b path = (w', .ok ()) ∧ ReadsFile w' h0 search path h' (.ok b') ∧
      ∀ k, getValue h' b' k = getValue h b k ∧ hasValue h' b' k = hasValue h b k := by
  have hwr : writeConfigFile d w h b path = (World.store w1 path (writeConfig h b).1, (writeConfig h b).2) := by
    unfold writeConfigFile
    unfold Prepared at hprep
    simp only at hprep ⊢
    rw [if_neg (by simp [fileIsDirectory, hdir])]
    have : (if fileIsDirectory w (getFilenamePath w (collapseFullPath w path)) = true then some w
        else d.makeDir w (getFilenamePath w (collapseFullPath w path))) = some w1 := by
      split at hprep
      · rename_i hp
        rw [if_pos (by simp [fileIsDirectory, hp.1, hp.2]), hprep]
      · rename_i hp
        rw [if_neg ?_]
        · exact hprep
        · intro hf
          apply hp
          simp [fileIsDirectory] at hf
          exact ⟨hf.2, hf.1⟩
    rw [this]
    simp only [hcan, if_true]
  obtain ⟨hok, s', p1, p2⟩ := C26_write_read (w := World.store w1 path (writeConfig h b).1) (file := path) hr hb hkeys hvals hlocs hne
    (by simp [World.store]) search hr0
  obtain ⟨n, hn⟩ := p1
  refine ⟨_, s'.heap, s'.cfg, by rw [hwr, hok], ⟨n, ?_⟩, fun k => ⟨(p2 k).1, (p2 k).2.1⟩⟩
  unfold readFileF
  rw [if_neg (by simp [fileExists, World.store, hpath]), if_neg (by simp [fileIsDirectory, World.store, hw1]), hn]

def rwDisk : Disk := { canWrite := fun _ _ => true, makeDir := fun w _ => some w }

example : ∃ w' h' b', writeConfigFile rwDisk {} writeDemo 0 (c!"/r/w.cfg") = (w', .ok ()) ∧ ReadsFile w' [] [] (c!"/r/w.cfg") h' (.ok b') ∧
    ∀ k, getValue h' b' k = getValue writeDemo 0 k ∧ hasValue h' b' k = hasValue writeDemo 0 k := by
  obtain ⟨h1, h2, h3⟩ := writeDemo_plain
  exact C84_write_read_partial (w1 := {}) (k0 := c!"alpha") ⟨_, rfl⟩ writeDemo_root h1 h2 h3 (by decide +kernel) (by decide) rfl
    (by simp [Prepared, rwDisk]) rfl rfl [] nil_reachable

/-- C85: a write_config_file that throws leaves every file as it was. -/
def C85_statement : Prop := ∀ (d : Disk) (w w' : World) (h : Heap) (b : Nat) (path : Str) (e : WriteExc), Reachable h → IsRoot h b →
  (∀ w p w1, d.makeDir w p = some w1 → w1.content = w.content) → writeConfigFile d w h b path = (w', .error e) → w'.content = w.content

def oldWorld : World := { content := fun f => if f = c!"/w.cfg" then some (c!"old = 1\n") else none, isDir := fun f => f == c!"/" }

/-- It is false: writing an empty block throws, having truncated the file. -/
theorem C85_refuted : ¬ C85_statement := by
  intro hst
  have hw : (writeConfigFile rwDisk oldWorld (run [.emptyConfig (c!"e")]) 0 (c!"/w.cfg")).2 = .error .write := by decide +kernel
  have hc : (writeConfigFile rwDisk oldWorld (run [.emptyConfig (c!"e")]) 0 (c!"/w.cfg")).1.content (c!"/w.cfg") = some [] := by decide +kernel
  have := hst rwDisk oldWorld (writeConfigFile rwDisk oldWorld (run [.emptyConfig (c!"e")]) 0 (c!"/w.cfg")).1
    (run [.emptyConfig (c!"e")]) 0 (c!"/w.cfg") .write ⟨_, rfl⟩
    ⟨mkBlock (c!"e") none, rfl, rfl⟩ (by intro w p w1 h; cases h; rfl) (by rw [← hw])
  rw [this] at hc
  revert hc
  decide +kernel

/-- It holds for a block that has values; only a missing directory or a directory in the way make it throw. -/
theorem C85_atomic_partial {d : Disk} {w w' : World} {h : Heap} {b : Nat} {path : Str} {e : WriteExc} (hr : Reachable h) (hb : IsRoot h b)
    {k0 : Str} (hne : hasValue h b k0 = .ok true) (hw : writeConfigFile d w h b path = (w', .error e)) : w' = w ∧ e = .write := by
  obtain ⟨hok, _⟩ := C27_sorted_entries hr hb hne
  unfold writeConfigFile at hw
  split at hw
  · cases hw; exact ⟨rfl, rfl⟩
  · simp only at hw
    generalize (if fileIsDirectory w (getFilenamePath w (collapseFullPath w path)) = true then some w
        else d.makeDir w (getFilenamePath w (collapseFullPath w path))) = made at hw
    cases made with
    | none => cases hw; exact ⟨rfl, rfl⟩
    | some w1 =>
      simp only at hw
      have := congrArg Prod.snd hw
      simp only at this
      rw [hok] at this
      cases this

example : writeConfigFile { rwDisk with makeDir := fun _ _ => none } {} writeDemo 0 (c!"/r/w.cfg") = ({}, .error .write) := rfl

/-! ### C81: where an included file is looked for -/

/-- The directory, with a slash. -/
def slashed (d : Str) : Str := if d.getLast? = some '/' then d else d ++ c!"/"

/-- The first directory of the list in which the name exists. -/
def FirstIn (w : World) (name : Str) (dirs : List Str) (p : Str) : Prop :=
  ∃ l d r, dirs = l ++ d :: r ∧ (∀ x ∈ l, w.readable (slashed x ++ name) = false) ∧ w.readable (slashed d ++ name) = true ∧ p = slashed d ++ name

def NotIn (w : World) (name : Str) (dirs : List Str) : Prop := ∀ d ∈ dirs, w.readable (slashed d ++ name) = false

/-- The directories that are searched before all others: those of the system search path. -/
def systemDirs (w : World) : List Str := getPath w (c!"CMAKE_FILE_PATH") ++ getPath w (c!"PATH")

/-- `IncludePath w search files name path`: including `name` in the file at the head of `files` (which the
    next one includes, and so on) means the file `path`; the empty path stands for a file not found. -/
inductive IncludePath (w : World) (search files : List Str) (name : Str) : Str → Prop where
  | absolute : (name.head? = some '/' ∨ name.head? = some '~') → IncludePath w search files name name
  | searched {p} : ¬ (name.head? = some '/' ∨ name.head? = some '~') → FirstIn w name (systemDirs w ++ search) p → w.isDir p = false →
      collapseFullPath w p ≠ [] → IncludePath w search files name (collapseFullPath w p)
  | beside {p} : ¬ (name.head? = some '/' ∨ name.head? = some '~') →
      (NotIn w name (systemDirs w ++ search) ∨ ∃ q, FirstIn w name (systemDirs w ++ search) q ∧ (w.isDir q = true ∨ collapseFullPath w q = [])) →
      FirstIn w name (systemDirs w ++ files.map (dirOf w)) p → w.isDir p = false → IncludePath w search files name (collapseFullPath w p)
  | nowhere : ¬ (name.head? = some '/' ∨ name.head? = some '~') →
      (NotIn w name (systemDirs w ++ search) ∨ ∃ q, FirstIn w name (systemDirs w ++ search) q ∧ (w.isDir q = true ∨ collapseFullPath w q = [])) →
      (NotIn w name (systemDirs w ++ files.map (dirOf w)) ∨ ∃ q, FirstIn w name (systemDirs w ++ files.map (dirOf w)) q ∧ w.isDir q = true) →
      IncludePath w search files name []

theorem slashed_ne (d name : Str) : slashed d ++ name ≠ [] := by
  unfold slashed
  split
  · intro h
    have : d = [] := by simp at h; exact h.1
    subst this
    rename_i hd; simp at hd
  · simp

/-- The first hit as a computation. -/
def hit (w : World) (name : Str) (dirs : List Str) : Option Str := (dirs.find? (fun d => w.readable (slashed d ++ name))).map (slashed · ++ name)

theorem hit_some {w : World} {name : Str} {dirs : List Str} {p : Str} : FirstIn w name dirs p ↔ hit w name dirs = some p := by
  unfold FirstIn hit
  constructor
  · rintro ⟨l, d, r, rfl, h1, h2, rfl⟩
    rw [find?_first _ l d r h1 h2]
    rfl
  · intro h
    cases hf : dirs.find? (fun d => w.readable (slashed d ++ name)) with
    | none => rw [hf] at h; cases h
    | some d =>
      rw [hf] at h
      cases h
      obtain ⟨l, r, e, h1⟩ := List.find?_eq_some_iff_append.1 hf |>.2
      exact ⟨l, d, r, e, fun x hx => by simpa using h1 x hx, (List.find?_eq_some_iff_append.1 hf).1, rfl⟩

theorem hit_none {w : World} {name : Str} {dirs : List Str} : NotIn w name dirs ↔ hit w name dirs = none := by
  unfold NotIn hit
  rw [Option.map_eq_none_iff, List.find?_eq_none]
  simp

theorem findName_hit (w : World) (name : Str) (dirs : List Str) : findName w name dirs false = (hit w name (systemDirs w ++ dirs)).getD [] := by
  unfold findName hit
  simp only [Bool.false_eq_true, if_false]
  rw [show getPath w (c!"CMAKE_FILE_PATH") ++ getPath w (c!"PATH") = systemDirs w from rfl, List.find?_map]
  rw [show (fileExists w ∘ fun p => withSlash p ++ name) = fun d => w.readable (slashed d ++ name) by
    funext d
    have : (slashed d ++ name != []) = true := by simpa using slashed_ne d name
    simp only [Function.comp, fileExists]
    rw [show withSlash d = slashed d from rfl, this]; simp]
  cases List.find? (fun d => w.readable (slashed d ++ name)) (systemDirs w ++ dirs) <;> rfl

theorem includeDirs_find (w : World) (P : Str → Bool) : ∀ (files seen : List Str), (∀ d ∈ seen, P d = false) →
    (includeDirs w files seen).find? P = (files.map (dirOf w)).find? P := by
  intro files
  induction files with
  | nil => intro seen _; rfl
  | cons f files ih =>
    intro seen hs
    unfold includeDirs
    split
    · rename_i hc
      rw [ih seen hs, List.map_cons, List.find?_cons, hs _ (by simpa using hc)]
    · rw [List.map_cons, List.find?_cons, List.find?_cons]
      cases hP : P (dirOf w f) with
      | true => rfl
      | false =>
        apply ih
        intro d hd
        rcases List.mem_cons.1 hd with rfl | hd
        · exact hP
        · exact hs d hd

theorem hit_include (w : World) (name : Str) (files : List Str) :
    hit w name (systemDirs w ++ includeDirs w files []) = hit w name (systemDirs w ++ files.map (dirOf w)) := by
  unfold hit
  rw [List.find?_append, List.find?_append, includeDirs_find w _ files [] (by simp)]

theorem findFile_hit (w : World) (name : Str) (dirs : List Str) : findFile w name dirs false =
    match hit w name (systemDirs w ++ dirs) with
    | none => []
    | some p => if w.isDir p then [] else collapseFullPath w p := by
  unfold findFile
  simp only [findName_hit]
  cases hh : hit w name (systemDirs w ++ dirs) with
  | none => simp
  | some p =>
    obtain ⟨_, d, _, _, _, _, rfl⟩ := hit_some.2 hh
    have hne := slashed_ne d name
    have hfd : fileIsDirectory w (slashed d ++ name) = w.isDir (slashed d ++ name) := by
      have : (slashed d ++ name != []) = true := by simpa using hne
      rw [fileIsDirectory, this]; simp
    simp only [Option.getD_some, hfd]
    cases w.isDir (slashed d ++ name) <;> simp [-List.append_eq_nil_iff, hne]

/-- C81: the file that an include directive means. -/
theorem C81_include_path (w : World) (search files : List Str) (name path : Str) :
    resolveFileName w search files name = path ↔ IncludePath w search files name path := by
  have habs : fileIsFullPath name = true ↔ (name.head? = some '/' ∨ name.head? = some '~') := by
    simp [fileIsFullPath, or_comm]
  unfold resolveFileName
  by_cases ha : fileIsFullPath name = true
  · rw [if_pos ha]
    constructor
    · rintro rfl; exact .absolute (habs.1 ha)
    · intro h
      cases h with
      | absolute => rfl
      | searched h => exact absurd (habs.1 ha) h
      | beside h => exact absurd (habs.1 ha) h
      | nowhere h => exact absurd (habs.1 ha) h
  · have hr : ¬ (name.head? = some '/' ∨ name.head? = some '~') := fun h => ha (habs.2 h)
    rw [if_neg ha, findFile_hit, findFile_hit, hit_include]
    constructor
    · rintro rfl
      have second : (NotIn w name (systemDirs w ++ search) ∨
            ∃ q, FirstIn w name (systemDirs w ++ search) q ∧ (w.isDir q = true ∨ collapseFullPath w q = [])) →
          IncludePath w search files name (match hit w name (systemDirs w ++ files.map (dirOf w)) with
            | none => []
            | some p => if w.isDir p then [] else collapseFullPath w p) := by
        intro hno
        cases h2 : hit w name (systemDirs w ++ files.map (dirOf w)) with
        | none => exact .nowhere hr hno (.inl (hit_none.2 h2))
        | some p =>
          simp only
          cases hd : w.isDir p with
          | true => exact .nowhere hr hno (.inr ⟨p, hit_some.2 h2, hd⟩)
          | false => exact .beside hr hno (hit_some.2 h2) hd
      cases h1 : hit w name (systemDirs w ++ search) with
      | none => simpa using second (.inl (hit_none.2 h1))
      | some p =>
        simp only
        cases hd : w.isDir p with
        | true => simpa using second (.inr ⟨p, hit_some.2 h1, .inl hd⟩)
        | false =>
          by_cases hc : collapseFullPath w p = []
          · simpa [hc] using second (.inr ⟨p, hit_some.2 h1, .inr hc⟩)
          · simp only [Bool.false_eq_true, if_false]
            rw [if_pos hc]
            exact .searched hr (hit_some.2 h1) hd hc
    · have first : (NotIn w name (systemDirs w ++ search) ∨
            ∃ q, FirstIn w name (systemDirs w ++ search) q ∧ (w.isDir q = true ∨ collapseFullPath w q = [])) →
          (match hit w name (systemDirs w ++ search) with
            | none => []
            | some p => if w.isDir p then [] else collapseFullPath w p) = [] := by
        rintro (h | ⟨q, h1, h2⟩)
        · rw [hit_none.1 h]
        · rw [hit_some.1 h1]
          rcases h2 with h2 | h2 <;> simp [h2]
      intro h
      cases h with
      | absolute h => exact absurd h hr
      | searched _ h1 hd hc =>
        rw [hit_some.1 h1]
        simp [hd, hc]
      | beside _ hno h2 hd =>
        rw [first hno, hit_some.1 h2]
        simp [hd]
      | nowhere _ hno h2 =>
        rw [first hno]
        rcases h2 with h2 | ⟨q, h2, hd⟩
        · rw [hit_none.1 h2]; simp
        · rw [hit_some.1 h2]; simp [hd]

example : IncludePath { readable := fun p => p == c!"/cfg/sub/i.cfg" } [c!"/s"] [c!"/cfg/sub/m.cfg", c!"/cfg/top.cfg"] (c!"i.cfg") (c!"/cfg/sub/i.cfg") :=
  (C81_include_path _ _ _ _ _).1 (by decide +kernel)

end Vital.Parser
