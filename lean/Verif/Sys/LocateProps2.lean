import Verif.Sys.LocateProps
/- Proofs of C238 - C241. -/
namespace Vital.Sys.Loc
open Vital Vital.Sys

/-! ### Paths of tame names -/

theorem Tame.ne {x : Str} (h : Tame x) : x ≠ [] := h.1
theorem Tame.noSlash {x : Str} (h : Tame x) : '/' ∉ x := fun hm => (h.2 _ hm).1 rfl

theorem join_cons2 (x y : Str) (l : List Str) : slashJoin (x :: y :: l) = x ++ '/' :: slashJoin (y :: l) := by
  simp [slashJoin]

theorem join_concat (ns : List Str) (x : Str) (h : ns ≠ []) : slashJoin (ns ++ [x]) = slashJoin ns ++ '/' :: x := by
  cases ns with
  | nil => exact absurd rfl h
  | cons y ns => simp [slashJoin]

theorem path_concat (abs : Bool) (ns : List Str) (x : Str) (h : ns ≠ []) : pathOf abs (ns ++ [x]) = pathOf abs ns ++ '/' :: x := by
  unfold pathOf
  rw [join_concat ns x h]
  simp

theorem adj_other {c : Char} (h : c ≠ '/') (s : Str) : adjacentSlashes (c :: s) = adjacentSlashes s := by
  conv => lhs; unfold adjacentSlashes
  split
  · rename_i e; exact absurd (List.cons.inj e).1 h
  · rename_i e; cases e; rfl
  · rename_i e; cases e

theorem adj_slash {s : Str} (h : s.head? ≠ some '/') : adjacentSlashes ('/' :: s) = adjacentSlashes s := by
  conv => lhs; unfold adjacentSlashes
  split
  · rename_i e; rw [(List.cons.inj e).2] at h; exact absurd rfl h
  · rename_i e; cases e; rfl
  · rename_i e; cases e

theorem adj_append {x : Str} (h : '/' ∉ x) (s : Str) : adjacentSlashes (x ++ s) = adjacentSlashes s := by
  induction x with
  | nil => rfl
  | cons c x ih =>
    rw [List.cons_append, adj_other (fun e => h (by simp [e])), ih (fun hm => h (by simp [hm]))]

theorem tame_head {x : Str} (h : Tame x) (s : Str) : (x ++ s).head? ≠ some '/' := by
  cases x with
  | nil => exact absurd rfl h.1
  | cons c x => simpa using (h.2 c (by simp)).1

theorem join_adj : ∀ {ns : List Str}, (∀ x ∈ ns, Tame x) → adjacentSlashes (slashJoin ns) = false ∧ (slashJoin ns).head? ≠ some '/'
  | [], _ => ⟨rfl, by simp [slashJoin]⟩
  | [x], h => by
    have hx := h x (by simp)
    have e : slashJoin [x] = x ++ [] := by simp [slashJoin]
    rw [e]
    exact ⟨by rw [adj_append hx.noSlash]; rfl, tame_head hx []⟩
  | x :: y :: l, h => by
    have hx := h x (by simp)
    obtain ⟨h1, h2⟩ := join_adj (ns := y :: l) (fun z hz => h z (List.mem_cons_of_mem _ hz))
    rw [join_cons2]
    exact ⟨by rw [adj_append hx.noSlash, adj_slash h2, h1], tame_head hx _⟩

theorem path_chars {abs : Bool} {ns : List Str} (h : ∀ x ∈ ns, Tame x) : ∀ c ∈ pathOf abs ns, c ≠ '\\' ∧ c ≠ ':' ∧ c ≠ '~' := by
  intro c hc
  unfold pathOf at hc
  rcases List.mem_append.1 hc with hc | hc
  · split at hc
    · rcases List.mem_singleton.1 hc with rfl; decide
    · cases hc
  · cases ns with
    | nil => cases hc
    | cons x l =>
      rcases List.mem_append.1 hc with hc | hc
      · exact (h x (by simp)).2 c hc |>.2
      · obtain ⟨y, hy, hc⟩ := List.mem_flatten.1 hc
        obtain ⟨z, hz, rfl⟩ := List.mem_map.1 hy
        rcases List.mem_cons.1 hc with rfl | hc
        · decide
        · exact (h z (by simp [hz])).2 c hc |>.2

theorem path_last {abs : Bool} {ns : List Str} {x : Str} (h : Tame x) : (pathOf abs (ns ++ [x])).getLast? = x.getLast? ∧ (pathOf abs (ns ++ [x])).getLast? ≠ some '/' ∧
    pathOf abs (ns ++ [x]) ≠ [] := by
  have hx : ∃ y c, x = y ++ [c] := by
    rcases List.eq_nil_or_concat x with e | ⟨y, c, e⟩
    · exact absurd e h.1
    · exact ⟨y, c, by rw [e, List.concat_eq_append]⟩
  obtain ⟨y, c, e⟩ := hx
  have he : ∃ z, pathOf abs (ns ++ [x]) = z ++ [c] := by
    by_cases hn : ns = []
    · subst hn; unfold pathOf; rw [e]; exact ⟨(if abs = true then ['/'] else []) ++ y, by simp [slashJoin]⟩
    · rw [path_concat abs ns x hn, e]; exact ⟨pathOf abs ns ++ '/' :: y, by simp⟩
  obtain ⟨z, hz⟩ := he
  rw [hz, e]
  refine ⟨by simp, ?_, by simp⟩
  have := (h.2 c (by rw [e]; simp)).1
  simpa using this

theorem path_normal {abs : Bool} {ns : List Str} {x : Str} (h : ∀ y ∈ ns, Tame y) (hx : Tame x) : SlashNormal (pathOf abs (ns ++ [x])) := by
  have hall : ∀ y ∈ ns ++ [x], Tame y := by
    intro y hy
    rcases List.mem_append.1 hy with hy | hy
    · exact h y hy
    · rw [List.mem_singleton.1 hy]; exact hx
  refine ⟨fun hm => (path_chars hall _ hm).1 rfl, fun a b e => ?_, fun e => ?_, (path_last hx).2.1⟩
  · have h1 := (adjacentSlashes_iff _).2 ⟨a, b, e⟩
    obtain ⟨h2, h3⟩ := join_adj hall
    unfold pathOf at h1
    cases abs with
    | true =>
      have : adjacentSlashes ('/' :: slashJoin (ns ++ [x])) = true := h1
      rw [adj_slash h3, h2] at this; cases this
    | false =>
      have : adjacentSlashes (slashJoin (ns ++ [x])) = true := h1
      rw [h2] at this; cases this
  · cases hp : pathOf abs (ns ++ [x]) with
    | nil => rw [hp] at e; cases e
    | cons c s =>
      rw [hp] at e
      have := path_chars (abs := abs) hall c (by rw [hp]; simp)
      exact this.2.2 (Option.some.inj e)

theorem before_cut {a x : Str} (h : '/' ∉ x) : beforeLast '/' (a ++ '/' :: x) = some a := by
  unfold beforeLast
  have e : (a ++ '/' :: x).reverse = x.reverse ++ '/' :: a.reverse := by simp
  rw [e, List.dropWhile_append_of_pos]
  · rw [List.dropWhile_cons_of_neg (by simp)]
    simp
  · intro c hc
    simp only [bne_iff_ne]
    rintro rfl; exact h (List.mem_reverse.1 hc)

theorem after_cut {a x : Str} (h : '/' ∉ x) : afterLast '/' (a ++ '/' :: x) = x := by
  unfold afterLast
  have e : (a ++ '/' :: x).reverse = x.reverse ++ '/' :: a.reverse := by simp
  rw [e, List.takeWhile_append_of_pos]
  · rw [List.takeWhile_cons_of_neg (by simp)]
    simp
  · intro c hc
    simp only [bne_iff_ne]
    rintro rfl; exact h (List.mem_reverse.1 hc)

theorem noSlash_cut {x : Str} (h : '/' ∉ x) : beforeLast '/' x = none ∧ afterLast '/' x = x := by
  obtain ⟨h1, h2, h3⟩ := afterLast_spec '/' x
  cases hb : beforeLast '/' x with
  | none => exact ⟨rfl, (h2 hb).2⟩
  | some r => exact absurd (by rw [h3 r hb]; simp) h

theorem path_name (abs : Bool) (ns : List Str) {x : Str} (hx : Tame x) : getFilenameName (pathOf abs (ns ++ [x])) = x := by
  unfold getFilenameName
  by_cases hn : ns = []
  · subst hn
    cases abs with
    | true =>
      have e : pathOf true ([] ++ [x]) = [] ++ '/' :: x := by simp [pathOf, slashJoin]
      rw [e]; exact after_cut hx.noSlash
    | false =>
      have e : pathOf false ([] ++ [x]) = x := by simp [pathOf, slashJoin]
      rw [e]; exact (noSlash_cut hx.noSlash).2
  · rw [path_concat abs ns x hn]; exact after_cut hx.noSlash

theorem path_parent (w : World) (abs : Bool) {ns : List Str} {x : Str} (h : ∀ y ∈ ns, Tame y) (hx : Tame x) :
    getFilenamePath w (pathOf abs (ns ++ [x])) = pathOf abs ns := by
  unfold getFilenamePath
  rw [convert_normal w (path_normal h hx)]
  by_cases hn : ns = []
  · subst hn
    cases abs with
    | true =>
      have e : pathOf true ([] ++ [x]) = [] ++ '/' :: x := by simp [pathOf, slashJoin]
      rw [e, before_cut hx.noSlash]; rfl
    | false =>
      have e : pathOf false ([] ++ [x]) = x := by simp [pathOf, slashJoin]
      rw [e, (noSlash_cut hx.noSlash).1]; rfl
  · rw [path_concat abs ns x hn, before_cut hx.noSlash]
    simp only
    rw [if_neg, if_neg]
    · intro e
      cases ns with
      | nil => exact hn rfl
      | cons y l =>
        have := congrArg List.length e
        have hy : 0 < y.length := List.length_pos_iff.2 (h y (by simp)).1
        simp [pathOf, slashJoin] at this
        exact (h y (by simp)).1 (by simpa using this.2.1)
    · rintro ⟨_, e⟩
      exact (path_chars h _ (List.mem_of_getElem? e)).2.1 rfl

theorem parent_trailing (w : World) (abs : Bool) {ns : List Str} {x : Str} (h : ∀ y ∈ ns, Tame y) (hx : Tame x) :
    getFilenamePath w (pathOf abs (ns ++ [x]) ++ ['/']) = pathOf abs ns := by
  rw [← path_parent w abs h hx]
  unfold getFilenamePath
  rw [convert_trailing w (path_normal h hx) (path_last hx).2.2, if_neg, convert_normal w (path_normal h hx)]
  rintro ⟨_, e⟩
  have hall : ∀ y ∈ ns ++ [x], Tame y := by
    intro y hy
    rcases List.mem_append.1 hy with hy | hy
    · exact h y hy
    · rw [List.mem_singleton.1 hy]; exact hx
  exact (path_chars hall _ (List.mem_of_getElem? e)).2.1 rfl

theorem isDir_plain (w : World) {p : Str} (h0 : p ≠ []) (h1 : p.getLast? ≠ some '/') (h2 : p.getLast? ≠ some '\\') : isDirT w p = w.isDir p := by
  unfold isDirT strip
  rw [if_neg (by rintro ⟨_, h | h, _⟩; exact h1 h; exact h2 h)]
  cases p with
  | nil => exact absurd rfl h0
  | cons c p => simp

theorem isDir_slash (w : World) {p : Str} (h0 : p ≠ []) (h1 : p.getLast? ≠ some ':') : isDirT w (p ++ ['/']) = w.isDir p := by
  unfold isDirT strip
  have hl : 0 < p.length := List.length_pos_iff.2 h0
  rw [if_pos ⟨by simp; omega, .inl (by simp), by simpa using h1⟩]
  simp

theorem last_mem {s : Str} {c : Char} (h : s.getLast? = some c) : c ∈ s := List.mem_of_getLast? h

theorem join_plain {p : Str} (h0 : p ≠ []) (h1 : p.getLast? ≠ some '/') (h2 : p.getLast? ≠ some '\\') (x : Str) : joinDir p x = p ++ '/' :: x := by
  unfold joinDir
  rw [if_pos ⟨h0, h1, h2⟩]; simp

theorem join_slash (p x : Str) : joinDir (p ++ ['/']) x = p ++ '/' :: x := by
  unfold joinDir
  rw [if_neg (by rintro ⟨_, h, _⟩; simp at h)]; simp

/-! ### C238 -/

/-- Names, each followed by a slash. -/
def trail (s : List Str) : Str := (s.map (fun x => x ++ ['/'])).flatten

theorem path_facts {abs : Bool} {ns : List Str} (h : ∀ x ∈ ns, Tame x) (hne : ns ≠ []) :
    pathOf abs ns ≠ [] ∧ (pathOf abs ns).getLast? ≠ some '/' ∧ (pathOf abs ns).getLast? ≠ some '\\' ∧ (pathOf abs ns).getLast? ≠ some ':' := by
  rcases List.eq_nil_or_concat ns with e | ⟨l, x, e⟩
  · exact absurd e hne
  · rw [List.concat_eq_append] at e
    have hx : Tame x := h x (by rw [e]; simp)
    have hl := path_last (abs := abs) (ns := l) hx
    rw [← e] at hl
    exact ⟨hl.2.2, hl.2.1, fun hc => (path_chars h _ (last_mem hc)).1 rfl, fun hc => (path_chars h _ (last_mem hc)).2.1 rfl⟩

theorem join_trail {x : Str} {s : List Str} : slashJoin (x :: s) ++ ['/'] = trail (x :: s) := by
  induction s generalizing x with
  | nil => simp [slashJoin, trail]
  | cons y s ih =>
    rw [join_cons2]
    have := ih (x := y)
    unfold trail at this ⊢
    rw [List.map_cons, List.flatten_cons, ← this]
    simp

theorem join_append {a b : List Str} (ha : a ≠ []) (hb : b ≠ []) : slashJoin (a ++ b) = slashJoin a ++ '/' :: slashJoin b := by
  cases a with
  | nil => exact absurd rfl ha
  | cons x a =>
    cases b with
    | nil => exact absurd rfl hb
    | cons y b => simp [slashJoin]

theorem joinDir_path {ds s : List Str} (hd : ∀ x ∈ ds, Tame x) (hs : s ≠ []) : joinDir (pathOf true ds) (trail s) = pathOf true (ds ++ s) ++ ['/'] := by
  cases s with
  | nil => exact absurd rfl hs
  | cons x s =>
    by_cases hne : ds = []
    · subst hne
      show joinDir ([] ++ ['/']) (trail (x :: s)) = _
      rw [join_slash, ← join_trail]
      rfl
    · obtain ⟨h0, h1, h2, _⟩ := path_facts (abs := true) hd hne
      rw [join_plain h0 h1 h2, ← join_trail]
      unfold pathOf
      rw [join_append hne (by simp)]
      simp

theorem joinDir_base {ns : List Str} (h : ∀ x ∈ ns, Tame x) (base : Str) : joinDir (pathOf true ns) base = pathOf true (ns ++ [base]) := by
  by_cases hne : ns = []
  · subst hne
    show joinDir ([] ++ ['/']) base = _
    rw [join_slash]; simp [pathOf, slashJoin]
  · obtain ⟨h0, h1, h2, _⟩ := path_facts (abs := true) h hne
    rw [join_plain h0 h1 h2, path_concat true ns base hne]

/-- Where the code really looks for the end `s`. -/
def tried (w : World) (ds : List Str) (base : Str) (s : List Str) : Str :=
  if w.isDir (pathOf true (ds ++ s)) = true then pathOf true (ds ++ s ++ [base]) else pathOf true (ds ++ s.dropLast ++ [base])

theorem exists_path (w : World) (ns : List Str) : fileExists w (pathOf true ns) = w.readable (pathOf true ns) := by
  unfold fileExists pathOf; simp

theorem tame_append {a b : List Str} (ha : ∀ x ∈ a, Tame x) (hb : ∀ x ∈ b, Tame x) : ∀ x ∈ a ++ b, Tame x := by
  intro x hx
  rcases List.mem_append.1 hx with h | h
  · exact ha x h
  · exact hb x h

theorem locateIn_end (w : World) {ds s : List Str} {base : Str} (hd : ∀ x ∈ ds, Tame x) (hs : ∀ x ∈ s, Tame x) (hne : s ≠ []) (hb : Tame base) :
    locateIn w base (joinDir (pathOf true ds) (trail s)) = if w.readable (tried w ds base s) = true then some (tried w ds base s) else none := by
  unfold locateIn
  have hn : getFilenameName base = base := (noSlash_cut hb.noSlash).2
  simp only [hn]
  rw [if_neg hb.1, joinDir_path hd hne]
  have hds := tame_append hd hs
  have hne2 : ds ++ s ≠ [] := by simp [hne]
  obtain ⟨h0, h1, h2, h3⟩ := path_facts (abs := true) hds hne2
  have hj : joinDir (realDir w (pathOf true (ds ++ s) ++ ['/'])) base = tried w ds base s := by
    unfold realDir tried
    rw [isDir_slash w h0 h3]
    by_cases hdir : w.isDir (pathOf true (ds ++ s)) = true
    · rw [if_pos hdir, if_pos hdir, join_slash, path_concat true (ds ++ s) base hne2]
    · rw [if_neg hdir, if_neg hdir]
      obtain ⟨l, x, e⟩ : ∃ l x, s = l ++ [x] := by
        rcases List.eq_nil_or_concat s with e | ⟨l, x, e⟩
        · exact absurd e hne
        · exact ⟨l, x, by rw [e, List.concat_eq_append]⟩
      have hl : ∀ y ∈ l, Tame y := fun y hy => hs y (by rw [e]; simp [hy])
      have hx : Tame x := hs x (by rw [e]; simp)
      have hdl := tame_append hd hl
      rw [e, ← List.append_assoc, parent_trailing w true hdl hx, joinDir_base hdl, List.dropLast_concat]
  rw [hj]
  have he : fileExists w (tried w ds base s) = w.readable (tried w ds base s) := by
    unfold tried
    split <;> exact exists_path w _
  rw [he]

/-- The ends of a list, given backwards, in front of `s`. -/
def endsR : List Str → List Str → List (List Str)
  | [], _ => []
  | c :: r, s => (c :: s) :: endsR r (c :: s)

theorem first_cons (w : World) (p : Str) (l : List Str) (r : Option Str) :
    FirstExisting w (p :: l) r ↔ (w.readable p = true ∧ r = some p) ∨ (w.readable p = false ∧ FirstExisting w l r) := by
  cases r with
  | none =>
    simp only [FirstExisting, List.mem_cons, forall_eq_or_imp, reduceCtorEq, and_false, false_or]
  | some f =>
    simp only [FirstExisting, Option.some.injEq]
    constructor
    · rintro ⟨a, b, e, hf, ha⟩
      cases a with
      | nil =>
        obtain ⟨e1, e2⟩ := List.cons.inj e
        exact .inl ⟨by rw [e1]; exact hf, e1.symm⟩
      | cons x a =>
        obtain ⟨e1, e2⟩ := List.cons.inj e
        exact .inr ⟨by rw [e1]; exact ha x (by simp), a, b, e2, hf, fun q hq => ha q (by simp [hq])⟩
    · rintro (⟨h1, h2⟩ | ⟨h1, a, b, e, hf, ha⟩)
      · exact ⟨[], l, by rw [h2]; rfl, by rw [h2]; exact h1, by simp⟩
      · refine ⟨p :: a, b, by rw [e]; rfl, hf, ?_⟩
        intro q hq
        rcases List.mem_cons.1 hq with rfl | hq
        · exact h1
        · exact ha q hq

theorem locateLoop_spec (w : World) (abs : Bool) {ds : List Str} {base : Str} (hd : ∀ x ∈ ds, Tame x) (hb : Tame base) :
    ∀ (r s : List Str) (x : Str), (∀ y ∈ r, Tame y) → (∀ y ∈ s, Tame y) → Tame x →
      ∃ res, locateLoop w base (pathOf true ds) (r.length + 1) (pathOf abs (r.reverse ++ [x])) (trail s) = some res ∧
        FirstExisting w ((endsR r s).map (tried w ds base)) res
  | [], s, x, _, _, hx => by
    refine ⟨none, ?_, by simp [endsR, FirstExisting]⟩
    unfold locateLoop
    simp only
    have e := path_parent w abs (ns := []) (by simp) hx
    rw [List.reverse_nil, e]
    cases abs <;> rfl
  | c :: r, s, x, hr, hs, hx => by
    have hc := hr c (by simp)
    have hr' : ∀ y ∈ r, Tame y := fun y hy => hr y (by simp [hy])
    have hcs : ∀ y ∈ c :: s, Tame y := by
      intro y hy
      rcases List.mem_cons.1 hy with rfl | hy
      · exact hc
      · exact hs y hy
    have hrev : ∀ y ∈ r.reverse ++ [c], Tame y := tame_append (fun y hy => hr' y (List.mem_reverse.1 hy)) (by simpa using hc)
    have ht : c ++ '/' :: trail s = trail (c :: s) := by simp [trail]
    obtain ⟨res, h1, h2⟩ := locateLoop_spec w abs hd hb r (c :: s) c hr' hcs hc
    have hl := locateIn_end w hd hcs (by simp) hb
    show ∃ res, locateLoop w base (pathOf true ds) ((r.length + 1) + 1) _ _ = _ ∧ _
    unfold locateLoop
    simp only
    rw [List.reverse_cons, path_parent w abs hrev hx, path_name abs r.reverse hc, if_neg hc.1, ht, hl]
    show ∃ res, _ ∧ FirstExisting w (tried w ds base (c :: s) :: (endsR r (c :: s)).map (tried w ds base)) res
    by_cases hread : w.readable (tried w ds base (c :: s)) = true
    · rw [if_pos hread]
      exact ⟨_, rfl, (first_cons _ _ _ _).2 (.inl ⟨hread, rfl⟩)⟩
    · rw [if_neg hread]
      exact ⟨res, h1, (first_cons _ _ _ _).2 (.inr ⟨by simpa using hread, h2⟩)⟩

theorem endsR_concat (r s : List Str) (x : Str) : endsR (r ++ [x]) s = endsR r s ++ [x :: (r.reverse ++ s)] := by
  induction r generalizing s with
  | nil => rfl
  | cons c r ih =>
    show (c :: s) :: endsR (r ++ [x]) (c :: s) = _
    rw [ih]
    simp [endsR]

theorem ends_eq (l : List Str) : ends l = [] :: endsR l.reverse [] := by
  induction l with
  | nil => rfl
  | cons x l ih =>
    unfold ends
    rw [ih, List.reverse_cons, endsR_concat]
    simp

/-- What the code does, for all tame names: it looks for the file in dir, then for each end of the file's directory - in dir/end if that is
    a directory, else one level higher. -/
theorem C238_exact (w : World) (abs : Bool) (ds cs : List Str) (base : Str) (hd : ∀ x ∈ ds, Tame x) (hc : ∀ x ∈ cs, Tame x) (hb : Tame base)
    (hdir : w.isDir (pathOf true ds) = true) :
    ∃ n r, locate w n (pathOf abs (cs ++ [base])) (pathOf true ds) true = some r ∧
      FirstExisting w ((ends cs).map (tried w ds base)) r := by
  obtain ⟨res, h1, h2⟩ := locateLoop_spec w abs hd hb cs.reverse [] base (fun y hy => hc y (List.mem_reverse.1 hy)) (by simp) hb
  have hreal : realDir w (pathOf true ds) = pathOf true ds := by
    unfold realDir
    have : isDirT w (pathOf true ds) = true := by
      by_cases hne : ds = []
      · subst hne
        unfold isDirT strip
        exact hdir
      · obtain ⟨k0, k1, k2, _⟩ := path_facts (abs := true) hd hne
        rw [isDir_plain w k0 k1 k2, hdir]
    rw [if_pos this]
  have htr : tried w ds base [] = pathOf true (ds ++ [base]) := by
    unfold tried
    rw [List.append_nil, if_pos hdir]
  rw [ends_eq, List.map_cons, htr]
  refine ⟨cs.reverse.length + 1, ?_⟩
  unfold locate
  simp only
  rw [path_name abs cs hb, if_neg hb.1, hreal, joinDir_base hd, exists_path]
  by_cases hread : w.readable (pathOf true (ds ++ [base])) = true
  · rw [if_pos hread]
    exact ⟨_, rfl, (first_cons _ _ _ _).2 (.inl ⟨hread, rfl⟩)⟩
  · simp only [if_neg hread, if_true]
    rw [List.reverse_reverse] at h1
    exact ⟨res, h1, (first_cons _ _ _ _).2 (.inr ⟨by simpa using hread, h2⟩)⟩

theorem first_congr (w : World) (f g : List Str → Str) (l : List (List Str))
    (h : ∀ s ∈ l, f s = g s ∨ (w.readable (f s) = false ∧ w.readable (g s) = false)) (r : Option Str) :
    FirstExisting w (l.map f) r → FirstExisting w (l.map g) r := by
  induction l with
  | nil => exact id
  | cons s l ih =>
    simp only [List.map_cons, first_cons]
    have ih := ih (fun s hs => h s (by simp [hs]))
    rcases h s (by simp) with e | ⟨e1, e2⟩
    · rw [e]
      rintro (h1 | ⟨h1, h2⟩)
      · exact .inl h1
      · exact .inr ⟨h1, ih h2⟩
    · rintro (⟨h1, _⟩ | ⟨_, h2⟩)
      · rw [e1] at h1; cases h1
      · exact .inr ⟨e2, ih h2⟩

/-- What holds of C238: files are in directories, and where dir/end is no directory there is no such file one level higher.  Missing: the
    other trees, and names with special characters. -/
theorem C238_partial (w : World) (abs : Bool) (ds cs : List Str) (base : Str) (hd : ∀ x ∈ ds, Tame x) (hc : ∀ x ∈ cs, Tame x) (hb : Tame base)
    (hdir : w.isDir (pathOf true ds) = true)
    (hin : ∀ s ∈ ends cs, w.isDir (pathOf true (ds ++ s)) = false →
      w.readable (pathOf true (ds ++ s ++ [base])) = false ∧ w.readable (pathOf true (ds ++ s.dropLast ++ [base])) = false) :
    ∃ n r, locate w n (pathOf abs (cs ++ [base])) (pathOf true ds) true = some r ∧
      FirstExisting w ((ends cs).map (fun s => pathOf true (ds ++ s ++ [base]))) r := by
  obtain ⟨n, r, h1, h2⟩ := C238_exact w abs ds cs base hd hc hb hdir
  refine ⟨n, r, h1, first_congr w _ _ _ ?_ r h2⟩
  intro s hs
  unfold tried
  by_cases h : w.isDir (pathOf true (ds ++ s)) = true
  · exact .inl (by rw [if_pos h])
  · rw [if_neg h]
    have := hin s hs (by simpa using h)
    exact .inr ⟨this.2, this.1⟩

/-- /d and /d/foo are directories, /d/foo/yo is a file; there is no /d/foo/bar. -/
def upWorld : World := { readable := fun p => p == c!"/d/foo/yo", isDir := fun p => p == c!"/d" || p == c!"/d/foo" }

theorem up_found : locate upWorld 3 (c!"foo/bar/yo") (c!"/d") true = some (some (c!"/d/foo/yo")) := by decide +kernel

/-- The number of rounds does not change what is found. -/
theorem locateLoop_more (w : World) (base dir : Str) : ∀ (n k : Nat) (f b : Str) (r : Option Str), locateLoop w base dir n f b = some r →
    locateLoop w base dir (n + k) f b = some r
  | 0, _, _, _, _, h => by cases h
  | n + 1, k, f, b, r, h => by
    rw [show n + 1 + k = (n + k) + 1 by omega]
    unfold locateLoop at h ⊢
    simp only at h ⊢
    split at h
    · rename_i hb; rw [if_pos hb]; exact h
    · rename_i hb
      rw [if_neg hb]
      split at h
      · exact h
      · exact locateLoop_more w base dir n k _ _ r h

theorem locate_more {w : World} {n m : Nat} {f d : Str} {t : Bool} {r r' : Option Str} (h : locate w n f d t = some r) (h' : locate w m f d t = some r') : r = r' := by
  unfold locate at h h'
  simp only at h h'
  split at h
  · rename_i hb; rw [if_pos hb] at h'; exact Option.some.inj (h.symm.trans h')
  · rename_i hb
    rw [if_neg hb] at h'
    split at h
    · rename_i he; rw [if_pos he] at h'; exact Option.some.inj (h.symm.trans h')
    · rename_i he
      rw [if_neg he] at h'
      split at h
      · rename_i ht
        rw [if_pos ht] at h'
        have h1 := locateLoop_more _ _ _ _ m _ _ _ h
        have h2 := locateLoop_more _ _ _ _ n _ _ _ h'
        rw [Nat.add_comm m n, h1] at h2
        exact Option.some.inj h2
      · rename_i ht; rw [if_neg ht] at h'; exact Option.some.inj (h.symm.trans h')

/-- C238 is false of the code: asked for foo/bar/yo in /d it finds /d/foo/yo. -/
theorem C238_refuted : ¬ C238_statement := by
  intro h
  have ht : ∀ x : Str, x ∈ [c!"d", c!"foo", c!"bar", c!"yo"] → Tame x := by
    intro x hx
    simp only [List.mem_cons, List.not_mem_nil, or_false] at hx
    rcases hx with rfl | rfl | rfl | rfl <;> exact ⟨by decide, by decide⟩
  obtain ⟨n, r, h1, h2⟩ := h upWorld false [c!"d"] [c!"foo", c!"bar"] (c!"yo") (fun x hx => ht x (by simp at hx; simp [hx]))
    (fun x hx => ht x (by simp at hx; rcases hx with h | h <;> simp [h])) (ht _ (by simp)) (by decide)
  have e := locate_more h1 up_found
  subst e
  obtain ⟨a, b, e, _⟩ := h2
  have hm : (c!"/d/foo/yo") ∈ (ends [c!"foo", c!"bar"]).map (fun s => pathOf true ([c!"d"] ++ s ++ [c!"yo"])) := by rw [e]; simp
  revert hm
  decide +kernel

/-- A concrete case for C238: /d/foo/bar/yo is found. -/
example : locate { readable := fun p => p == c!"/d/foo/bar/yo", isDir := fun p => p == c!"/d" || p == c!"/d/foo" || p == c!"/d/foo/bar" } 3 (c!"/foo/bar/yo") (c!"/d") true =
    some (some (c!"/d/foo/bar/yo")) ∧ ends [c!"foo", c!"bar"] = [[], [c!"bar"], [c!"foo", c!"bar"]] := by decide +kernel

/-! ### C239 -/

/-- C239 is false of the code: a program in the root directory has the empty directory. -/
theorem C239_refuted : ¬ C239_statement := by
  intro h
  have := h {} true [] (c!"prog") (by simp) ⟨by decide, by decide⟩ rfl (fun h => absurd rfl h)
  revert this
  decide +kernel

/-- What holds of C239: programs that are not in the root directory.  Missing: the root directory, names with special characters. -/
theorem C239_partial (w : World) (abs : Bool) (ns : List Str) (x : Str) (h : ∀ y ∈ ns, Tame y) (hx : Tame x) (hne : ns ≠ [] ∨ abs = false)
    (hfile : w.isDir (pathOf abs (ns ++ [x])) = false) (hdir : ns ≠ [] → w.isDir (pathOf abs ns) = true) :
    splitProgramPath w (pathOf abs (ns ++ [x])) = (true, pathOf abs ns, x) := by
  unfold splitProgramPath
  rw [convert_normal w (path_normal h hx)]
  obtain ⟨k0, k1, k2, _⟩ := path_facts (abs := abs) (ns := ns ++ [x]) (tame_append h (by simpa using hx)) (by simp)
  simp only
  rw [isDir_plain w k0 k1 k2, hfile]
  simp only [Bool.false_eq_true, if_false]
  by_cases hn : ns = []
  · subst hn
    have ha : abs = false := hne.resolve_left (fun h => h rfl)
    subst ha
    have e : pathOf false ([] ++ [x]) = x := by simp [pathOf, slashJoin]
    rw [e, (noSlash_cut hx.noSlash).1]
    simp [pathOf, slashJoin]
  · rw [path_concat abs ns x hn, before_cut hx.noSlash, after_cut hx.noSlash]
    simp only
    obtain ⟨m0, m1, m2, _⟩ := path_facts (abs := abs) h hn
    rw [isDir_plain w m0 m1 m2, hdir hn]
    simp

/-- A concrete case for C239. -/
example : splitProgramPath { isDir := fun p => p == c!"/usr/bin" } (c!"/usr/bin/prog") = (true, c!"/usr/bin", c!"prog") ∧
    splitProgramPath {} (c!"prog") = (true, [], c!"prog") ∧ splitProgramPath {} (c!"/no/prog") = (false, c!"/no/prog", c!"prog") := by decide +kernel

/-! ### C240 -/

/-- C240 is false of the code: without a name for the program but with a build directory the behaviour is undefined. -/
theorem C240_refuted : ¬ C240_statement := by
  intro h
  have e : findProgramPath {} none none (some (c!"/build")) none = none := by decide +kernel
  rcases h {} none none (some (c!"/build")) none with ⟨p, h, _⟩ | ⟨m, h, _⟩ <;> rw [e] at h <;> cases h

/-- What holds of C240: a name is given, or neither directory is.  Missing: the other calls. -/
theorem C240_partial (w : World) (argv0 exeName buildDir installPrefix : Option Str)
    (hx : exeName ≠ none ∨ (buildDir = none ∧ installPrefix = none)) :
    (∃ p, findProgramPath w argv0 exeName buildDir installPrefix = some (.ok p) ∧
      ∃ a b, places w argv0 exeName buildDir installPrefix = a ++ p :: b ∧ fileExists w p = true ∧ ∀ q ∈ a, fileExists w q = false) ∨
    (∃ m, findProgramPath w argv0 exeName buildDir installPrefix = some (.error m) ∧
      ∀ q ∈ places w argv0 exeName buildDir installPrefix, fileExists w q = false) := by
  unfold findProgramPath places
  generalize findProgram w (convertToUnixSlashes w (argv0.getD [])) [] false = s0
  simp only
  by_cases h0 : fileExists w s0 = true
  · -- found at once
    rw [if_pos h0]
    left
    refine ⟨s0, ?_, [], _, rfl, h0, by simp⟩
    cases installPrefix with
    | none => simp only [h0, if_true]
    | some i => simp only [h0, if_true]
  · rw [if_neg h0]
    have h0' : fileExists w s0 = false := by simpa using h0
    cases buildDir with
    | none =>
      cases installPrefix with
      | none =>
        right
        simp only [h0', Bool.false_eq_true, if_false]
        exact ⟨_, rfl, by simpa using h0'⟩
      | some i =>
        cases exeName with
        | none => rcases hx with h | h; exact absurd rfl h; cases h.2
        | some e =>
          simp only [h0', Bool.false_eq_true, if_false, plus, Option.map_some, Option.getD_some, Option.map_none, Option.toList_none, Option.toList_some, List.nil_append]
          by_cases h1 : fileExists w (i ++ c!"/bin/" ++ e) = true
          · left
            rw [if_pos h1]
            exact ⟨_, rfl, [s0], [], rfl, h1, by simpa using h0'⟩
          · right
            rw [if_neg h1]
            refine ⟨_, rfl, ?_⟩
            intro q hq
            simp only [List.mem_cons, List.not_mem_nil, or_false] at hq
            rcases hq with rfl | rfl
            · exact h0'
            · simpa using h1
    | some b =>
      cases exeName with
      | none => rcases hx with h | h; exact absurd rfl h; cases h.1
      | some e =>
        have eb : b ++ c!"/bin/" ++ c!"." ++ c!"/" ++ e = b ++ c!"/bin/./" ++ e := by simp
        simp only [plus, Option.map_some, Option.getD_some, Option.toList_some, eb]
        generalize b ++ c!"/bin/./" ++ e = s1
        cases installPrefix with
        | none =>
          simp only [Option.map_none, Option.toList_none, List.append_nil]
          by_cases h1 : fileExists w s1 = true
          · left
            rw [if_pos h1]
            exact ⟨_, rfl, [s0], [], rfl, h1, by simpa using h0'⟩
          · right
            rw [if_neg h1]
            refine ⟨_, rfl, ?_⟩
            intro q hq
            simp only [List.mem_cons, List.not_mem_nil, or_false] at hq
            rcases hq with rfl | rfl
            · exact h0'
            · simpa using h1
        | some i =>
          simp only [Option.map_some, Option.toList_some]
          by_cases h1 : fileExists w s1 = true
          · left
            simp only [h1, if_true]
            exact ⟨_, rfl, [s0], [i ++ c!"/bin/" ++ e], rfl, h1, by simpa using h0'⟩
          · have h1' : fileExists w s1 = false := by simpa using h1
            simp only [h1', Bool.false_eq_true, if_false]
            by_cases h2 : fileExists w (i ++ c!"/bin/" ++ e) = true
            · left
              rw [if_pos h2]
              refine ⟨_, rfl, [s0, s1], [], rfl, h2, ?_⟩
              intro q hq
              simp only [List.mem_cons, List.not_mem_nil, or_false] at hq
              rcases hq with rfl | rfl
              · exact h0'
              · exact h1'
            · right
              rw [if_neg h2]
              refine ⟨_, rfl, ?_⟩
              intro q hq
              simp only [List.mem_cons, List.nil_append, List.cons_append, List.not_mem_nil, or_false] at hq
              rcases hq with rfl | rfl | rfl
              · exact h0'
              · exact h1'
              · simpa using h2

/-- The message names the places below the build directory and the prefix that were tried. -/
theorem C240_message (w : World) (argv0 : Option Str) (exe : Str) (buildDir installPrefix : Option Str) (m : Str)
    (h : findProgramPath w argv0 (some exe) buildDir installPrefix = some (.error m)) :
    ∀ q, (∃ b, buildDir = some b ∧ q = b ++ (c!"/bin/./") ++ exe) ∨ (∃ i, installPrefix = some i ∧ q = i ++ (c!"/bin/") ++ exe) →
      ∃ u v, m = u ++ (c!"    \"") ++ q ++ (c!"\"\n") ++ v := by
  have key : ∀ (l : List Str) (q : Str), q ∈ l → ∃ u v, failMessage argv0 (some exe) l = u ++ (c!"    \"") ++ q ++ (c!"\"\n") ++ v := by
    intro l q hq
    obtain ⟨a, b, rfl⟩ := List.append_of_mem hq
    unfold failMessage
    rw [List.map_append, List.map_cons, List.flatten_append, List.flatten_cons]
    generalize (_ : Str) ++ (c!"  Attempted paths:\n") = u
    refine ⟨u ++ (a.map (fun f => (c!"    \"") ++ f ++ ['"', '\n'])).flatten, (b.map (fun f => (c!"    \"") ++ f ++ ['"', '\n'])).flatten, ?_⟩
    simp only [List.append_assoc]
  have hnot : ∀ q ∈ places w argv0 (some exe) buildDir installPrefix, fileExists w q = false := by
    rcases C240_partial w argv0 (some exe) buildDir installPrefix (.inl (by simp)) with ⟨p, e, _⟩ | ⟨m', e, hq⟩
    · rw [h] at e; cases e
    · exact hq
  unfold findProgramPath at h
  unfold places at hnot
  generalize findProgram w (convertToUnixSlashes w (argv0.getD [])) [] false = s0 at *
  have h0 := hnot s0 (by simp)
  simp only [h0, Bool.false_eq_true, if_false, plus, Option.map_some] at h
  intro q hq
  cases buildDir with
  | none =>
    cases installPrefix with
    | none => rcases hq with ⟨b, e, _⟩ | ⟨b, e, _⟩ <;> cases e
    | some i =>
      rcases hq with ⟨b, e, _⟩ | ⟨b, e, rfl⟩
      · cases e
      · cases e
        simp only [h0, Bool.false_eq_true, if_false] at h
        split at h
        · cases h
        · cases h; exact key _ _ (by simp)
  | some b =>
    have eb : b ++ c!"/bin/" ++ c!"." ++ c!"/" ++ exe = b ++ c!"/bin/./" ++ exe := by simp
    simp only [eb] at h
    have h1 := hnot (b ++ c!"/bin/./" ++ exe) (by simp)
    cases installPrefix with
    | none =>
      rcases hq with ⟨b', e, rfl⟩ | ⟨b', e, _⟩
      · cases e
        simp only [h1, Bool.false_eq_true, if_false] at h
        cases h; exact key _ _ (by simp)
      · cases e
    | some i =>
      simp only [h1, Bool.false_eq_true, if_false] at h
      split at h
      · cases h
      · cases h
        rcases hq with ⟨b', e, rfl⟩ | ⟨b', e, rfl⟩ <;> cases e <;> exact key _ _ (by simp)

/-- A concrete case for C240. -/
example : findProgramPath { readable := fun p => p == c!"/opt/bin/tool" } (some (c!"tool")) (some (c!"tool")) (some (c!"/b")) (some (c!"/opt")) =
    some (.ok (c!"/opt/bin/tool")) := by decide +kernel

/-! ### C241 -/

/-- C241: the comparison is the sign of the difference of the times in nanoseconds; without one of the files it fails and says 0. -/
theorem C241_sign (stat : Str → Option (Int × Nat)) (hn : ∀ f s n, stat f = some (s, n) → n < 1000000000) (f1 f2 : Str) :
    (∀ s1 n1 s2 n2, stat f1 = some (s1, n1) → stat f2 = some (s2, n2) →
      fileTimeCompare stat f1 f2 = (true, Int.sign ((s1 * 1000000000 + n1) - (s2 * 1000000000 + n2)))) ∧
    (stat f1 = none ∨ stat f2 = none → fileTimeCompare stat f1 f2 = (false, 0)) := by
  constructor
  · intro s1 n1 s2 n2 h1 h2
    have k1 := hn f1 s1 n1 h1
    have k2 := hn f2 s2 n2 h2
    unfold fileTimeCompare
    simp only [h1, h2]
    congr 1
    split
    · rw [Int.sign_eq_neg_one_of_neg (by omega)]
    · split
      · rw [Int.sign_eq_one_of_pos (by omega)]
      · have : s1 = s2 := by omega
        subst this
        split
        · rw [Int.sign_eq_neg_one_of_neg (by omega)]
        · split
          · rw [Int.sign_eq_one_of_pos (by omega)]
          · have : n1 = n2 := by omega
            subst this
            simp
  · intro h
    unfold fileTimeCompare
    rcases h with h | h
    · rw [h]
    · cases h1 : stat f1 with
      | none => rfl
      | some p => simp only [h]

/-- So it is an order: swapping the files swaps the sign, and "not later" is transitive. -/
theorem C241_order (stat : Str → Option (Int × Nat)) (hn : ∀ f s n, stat f = some (s, n) → n < 1000000000) (a b c : Str) :
    (fileTimeCompare stat a b).2 = -(fileTimeCompare stat b a).2 ∧
    ((fileTimeCompare stat a b).1 = true → (fileTimeCompare stat b c).1 = true → (fileTimeCompare stat a b).2 ≤ 0 → (fileTimeCompare stat b c).2 ≤ 0 →
      (fileTimeCompare stat a c).1 = true ∧ (fileTimeCompare stat a c).2 ≤ 0) := by
  cases ha : stat a with
  | none =>
    constructor
    · rw [(C241_sign stat hn a b).2 (.inl ha), (C241_sign stat hn b a).2 (.inr ha)]; rfl
    · intro h; rw [(C241_sign stat hn a b).2 (.inl ha)] at h; cases h
  | some ta =>
    cases hb : stat b with
    | none =>
      constructor
      · rw [(C241_sign stat hn a b).2 (.inr hb), (C241_sign stat hn b a).2 (.inl hb)]; rfl
      · intro h; rw [(C241_sign stat hn a b).2 (.inr hb)] at h; cases h
    | some tb =>
      constructor
      · rw [(C241_sign stat hn a b).1 _ _ _ _ ha hb, (C241_sign stat hn b a).1 _ _ _ _ hb ha]
        show Int.sign _ = - Int.sign _
        rw [← Int.sign_neg]; congr 1; omega
      · intro h1 h2 h3 h4
        cases hc : stat c with
        | none => rw [(C241_sign stat hn b c).2 (.inr hc)] at h2; cases h2
        | some tc =>
          rw [(C241_sign stat hn a b).1 _ _ _ _ ha hb] at h3
          rw [(C241_sign stat hn b c).1 _ _ _ _ hb hc] at h4
          rw [(C241_sign stat hn a c).1 _ _ _ _ ha hc]
          refine ⟨rfl, ?_⟩
          simp only [Int.sign_nonpos_iff] at h3 h4 ⊢
          omega

/-- A concrete case for C241. -/
example : fileTimeCompare (fun f => if f = c!"a" then some (5, 999999999) else if f = c!"b" then some (6, 0) else none) (c!"a") (c!"b") = (true, -1) := by decide +kernel

end Vital.Sys.Loc
