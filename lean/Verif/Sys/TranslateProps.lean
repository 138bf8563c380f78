import Verif.Sys.Translate
/-
  What a path leads to is not changed by the translations (C228), when collapsing with translations is canonical and idempotent (C229),
  and when setting them up ends (C230).
-/
namespace Vital.Sys.Real
open Vital Vital.Sys

/-! ### Walking -/

theorem walk_append {t : Tree} {s r : List Str} {l : List Str} (h : Walk t s l r) : ∀ a b, l = a ++ b → ∃ m, Walk t s a m ∧ Walk t m b r := by
  induction h with
  | done =>
    intro a b h
    have h := h.symm
    rw [List.append_eq_nil_iff] at h
    rw [h.1, h.2]
    exact ⟨_, .done, .done⟩
  | @stay s r c l hc hd hw ih =>
    intro a b h
    cases a with
    | nil => rw [List.nil_append] at h; exact ⟨_, .done, h ▸ .stay hc hd hw⟩
    | cons x a =>
      rw [List.cons_append] at h
      obtain ⟨rfl, h0⟩ := List.cons.inj h
      obtain ⟨m, h1, h2⟩ := ih a b h0
      exact ⟨m, .stay hc hd h1, h2⟩
  | @up s r l hd hw ih =>
    intro a b h
    cases a with
    | nil => rw [List.nil_append] at h; exact ⟨_, .done, h ▸ .up hd hw⟩
    | cons x a =>
      rw [List.cons_append] at h
      obtain ⟨rfl, h0⟩ := List.cons.inj h
      obtain ⟨m, h1, h2⟩ := ih a b h0
      exact ⟨m, .up hd h1, h2⟩
  | @enter s r c l hc hd ht hw ih =>
    intro a b h
    cases a with
    | nil => rw [List.nil_append] at h; exact ⟨_, .done, h ▸ .enter hc hd ht hw⟩
    | cons x a =>
      rw [List.cons_append] at h
      obtain ⟨rfl, h0⟩ := List.cons.inj h
      obtain ⟨m, h1, h2⟩ := ih a b h0
      exact ⟨m, .enter hc hd ht h1, h2⟩
  | @absolute s r c g l hc hd ht hw ih =>
    intro a b h
    cases a with
    | nil => rw [List.nil_append] at h; exact ⟨_, .done, h ▸ .absolute hc hd ht hw⟩
    | cons x a =>
      rw [List.cons_append] at h
      obtain ⟨rfl, h0⟩ := List.cons.inj h
      obtain ⟨m, h1, h2⟩ := ih (names g ++ a) b (by rw [h0, List.append_assoc])
      exact ⟨m, .absolute hc hd ht h1, h2⟩
  | @relative s r c g l hc hd ht hg hn hw ih =>
    intro a b h
    cases a with
    | nil => rw [List.nil_append] at h; exact ⟨_, .done, h ▸ .relative hc hd ht hg hn hw⟩
    | cons x a =>
      rw [List.cons_append] at h
      obtain ⟨rfl, h0⟩ := List.cons.inj h
      obtain ⟨m, h1, h2⟩ := ih (names g ++ a) b (by rw [h0, List.append_assoc])
      exact ⟨m, .relative hc hd ht hg hn h1, h2⟩

theorem walk_then {t : Tree} {s m : List Str} {a : List Str} (h : Walk t s a m) : ∀ {b r : List Str}, Walk t m b r → Walk t s (a ++ b) r := by
  induction h with
  | done => intro b r h; exact h
  | stay hc hd _ ih => intro b r h; exact .stay hc hd (ih h)
  | up hd _ ih => intro b r h; exact .up hd (ih h)
  | enter hc hd ht _ ih => intro b r h; exact .enter hc hd ht (ih h)
  | absolute hc hd ht _ ih => intro b r h; exact .absolute hc hd ht (by rw [List.append_eq, ← List.append_assoc]; exact ih h)
  | relative hc hd ht hg hn _ ih => intro b r h; exact .relative hc hd ht hg hn (by rw [List.append_eq, ← List.append_assoc]; exact ih h)

theorem entry_stay {c : Str} (h : Entry c) (h' : c = [] ∨ c = ['.']) : False := by
  rcases h' with h' | h'
  · exact h.1 h'
  · exact h.2.1 h'

theorem walk_det {t : Tree} {s r : List Str} {l : List Str} (h : Walk t s l r) : ∀ {r' : List Str}, Walk t s l r' → r = r' := by
  induction h with
  | done => intro r' h; cases h; rfl
  | stay hc hd _ ih =>
    intro r' h
    cases h with
    | stay _ _ h => exact ih h
    | up => rcases hc with h | h <;> cases h
    | enter he => exact (entry_stay he hc).elim
    | absolute he => exact (entry_stay he hc).elim
    | relative he => exact (entry_stay he hc).elim
  | up hd _ ih =>
    intro r' h
    cases h with
    | stay hc => rcases hc with h | h <;> cases h
    | up _ h => exact ih h
    | enter he => exact (he.2.2 rfl).elim
    | absolute he => exact (he.2.2 rfl).elim
    | relative he => exact (he.2.2 rfl).elim
  | enter he hd ht _ ih =>
    intro r' h
    cases h with
    | stay hc => exact (entry_stay he hc).elim
    | up => exact (he.2.2 rfl).elim
    | enter _ _ _ h => exact ih h
    | absolute _ _ h => rw [h] at ht; rcases ht with h | h <;> cases h
    | relative _ _ h => rw [h] at ht; rcases ht with h | h <;> cases h
  | absolute he hd ht _ ih =>
    intro r' h
    cases h with
    | stay hc => exact (entry_stay he hc).elim
    | up => exact (he.2.2 rfl).elim
    | enter _ _ h => rw [ht] at h; rcases h with h | h <;> cases h
    | absolute _ _ h h2 => rw [ht] at h; cases h; exact ih h2
    | relative _ _ h hg => rw [ht] at h; cases h; exact (hg rfl).elim
  | relative he hd ht hg hn _ ih =>
    intro r' h
    cases h with
    | stay hc => exact (entry_stay he hc).elim
    | up => exact (he.2.2 rfl).elim
    | enter _ _ h => rw [ht] at h; rcases h with h | h <;> cases h
    | absolute _ _ h => rw [ht] at h; cases h; exact (hg rfl).elim
    | relative _ _ h _ _ h2 => rw [ht] at h; cases h; exact ih h2

theorem leads_det {t : Tree} {p : Str} {r r' : List Str} (h : LeadsTo t p r) (h' : LeadsTo t p r') : r = r' := by
  obtain ⟨q, rfl, h⟩ := h
  obtain ⟨q', e, h'⟩ := h'
  cases e
  exact walk_det h h'

/-- Leaving out empty names. -/
inductive Thin : List Str → List Str → Prop where
  | nil : Thin [] []
  | keep {c : Str} {l l' : List Str} : Thin l l' → Thin (c :: l) (c :: l')
  | drop {l l' : List Str} : Thin l l' → Thin ([] :: l) l'

theorem Thin.refl : ∀ l, Thin l l
  | [] => .nil
  | _ :: l => .keep (Thin.refl l)

theorem Thin.prefix (a : List Str) {l l' : List Str} (h : Thin l l') : Thin (a ++ l) (a ++ l') := by
  induction a with
  | nil => exact h
  | cons c a ih => exact .keep ih

theorem Thin.trans {a b : List Str} (h : Thin a b) : ∀ {c : List Str}, Thin b c → Thin a c := by
  induction h with
  | nil => intro c h; exact h
  | keep _ ih =>
    intro c h
    cases h with
    | keep h => exact .keep (ih h)
    | drop h => exact .drop (ih h)
  | drop _ ih => intro c h; exact .drop (ih h)

theorem Thin.tail {a b : List Str} (h : Thin ([] :: a) ([] :: b)) : Thin a b := by
  cases h with
  | keep h => exact h
  | drop h => exact h.trans (.drop (Thin.refl b))

theorem walk_thin {t : Tree} {s r : List Str} {l : List Str} (h : Walk t s l r) : ∀ {l' : List Str}, Thin l l' → Walk t s l' r := by
  induction h with
  | done => intro l' h; cases h; exact .done
  | stay hc hd _ ih =>
    intro l' h
    cases h with
    | keep h => exact .stay hc hd (ih h)
    | drop h => exact ih h
  | up hd _ ih => intro l' h; cases h with | keep h => exact .up hd (ih h)
  | enter he hd ht _ ih =>
    intro l' h
    cases h with
    | keep h => exact .enter he hd ht (ih h)
    | drop => exact (he.1 rfl).elim
  | absolute he hd ht _ ih =>
    intro l' h
    cases h with
    | keep h => exact .absolute he hd ht (ih (h.prefix _))
    | drop => exact (he.1 rfl).elim
  | relative he hd ht hg hn _ ih =>
    intro l' h
    cases h with
    | keep h => exact .relative he hd ht hg hn (ih (h.prefix _))
    | drop => exact (he.1 rfl).elim

/-! ### Names -/

theorem last_split {q : Str} (h : q.getLast? = some '/') : q = q.dropLast ++ ['/'] := by
  have hq : q ≠ [] := by rintro rfl; cases h
  have := List.dropLast_concat_getLast hq
  rw [List.getLast?_eq_some_getLast hq] at h
  rw [Option.some.inj h] at this
  exact this.symm

theorem names_ne (s : Str) : names s ≠ [] := by
  cases s with
  | nil => simp [names]
  | cons c s =>
    unfold names
    split
    · simp
    · split <;> simp

theorem names_slash (a b : Str) : names (a ++ '/' :: b) = names a ++ names b := by
  induction a with
  | nil => simp [names]
  | cons c a ih =>
    rw [List.cons_append, names, names, ih]
    split
    · simp
    · cases h : names a with
      | nil => exact absurd h (names_ne a)
      | cons x l => simp

theorem names_noSlash (s : Str) : ∀ x ∈ names s, '/' ∉ x := by
  induction s with
  | nil => intro x hx; simp [names] at hx; subst hx; simp
  | cons c s ih =>
    intro x hx
    unfold names at hx
    split at hx
    · rcases List.mem_cons.1 hx with rfl | hx
      · simp
      · exact ih x hx
    · rename_i hc
      cases h : names s with
      | nil => exact absurd h (names_ne s)
      | cons y l =>
        rw [h] at hx
        rcases List.mem_cons.1 hx with rfl | hx
        · have := ih y (by rw [h]; simp)
          simp only [List.mem_cons, not_or]
          exact ⟨fun e => hc e.symm, this⟩
        · exact ih x (by rw [h]; simp [hx])

theorem names_single {x : Str} (h : '/' ∉ x) : names x = [x] := by
  induction x with
  | nil => rfl
  | cons c x ih =>
    simp only [List.mem_cons, not_or] at h
    unfold names
    rw [if_neg (fun e => h.1 e.symm), ih h.2]

theorem names_join : ∀ (l : List Str), l ≠ [] → (∀ x ∈ l, '/' ∉ x) → names (slashJoin l) = l
  | [], h, _ => absurd rfl h
  | [x], _, h => by simpa [slashJoin] using names_single (h x (by simp))
  | x :: y :: l, _, h => by
    have ih := names_join (y :: l) (by simp) (fun z hz => h z (by simp [hz]))
    have e : slashJoin (x :: y :: l) = x ++ '/' :: slashJoin (y :: l) := by simp [slashJoin]
    rw [e, names_slash, names_single (h x (by simp)), ih]
    rfl

/-! ### Places that a walk reaches have a path that leads to them -/

inductive RealDir (t : Tree) : List Str → Prop where
  | root : RealDir t []
  | sub {c : Str} {s : List Str} : Entry c → '/' ∉ c → RealDir t s → t (c :: s) = some .dir → RealDir t (c :: s)

/-- A place that is there, below directories only. -/
def RealPlace (t : Tree) (r : List Str) : Prop := RealDir t r ∨ ∃ c s, r = c :: s ∧ Entry c ∧ '/' ∉ c ∧ RealDir t s ∧ t r = some .file

theorem RealDir.isDir {t : Tree} {s : List Str} (h : RealDir t s) : IsDir t s := by
  cases h with
  | root => exact .inl rfl
  | sub _ _ _ h => exact .inr h

theorem real_dir {t : Tree} {s : List Str} (h : RealPlace t s) (hd : IsDir t s) : RealDir t s := by
  rcases h with h | ⟨c, s', rfl, _, _, _, hf⟩
  · exact h
  · rcases hd with hd | hd
    · cases hd
    · rw [hd] at hf; cases hf

theorem real_walk {t : Tree} {s r : List Str} {l : List Str} (h : Walk t s l r) : RealPlace t s → (∀ x ∈ l, '/' ∉ x) → RealPlace t r := by
  induction h with
  | done => intro h _; exact h
  | stay _ _ _ ih => intro h hl; exact ih h (fun x hx => hl x (by simp [hx]))
  | up hd _ ih =>
    intro h hl
    refine ih ?_ (fun x hx => hl x (by simp [hx]))
    have := real_dir h hd
    cases this with
    | root => exact .inl .root
    | sub _ _ h' _ => exact .inl h'
  | enter he hd ht _ ih =>
    intro h hl
    refine ih ?_ (fun x hx => hl x (by simp [hx]))
    have hr := real_dir h hd
    rcases ht with ht | ht
    · exact .inl (.sub he (hl _ (by simp)) hr ht)
    · exact .inr ⟨_, _, rfl, he, hl _ (by simp), hr, ht⟩
  | absolute he hd ht _ ih =>
    intro h hl
    refine ih (.inl .root) (fun x hx => ?_)
    rcases List.mem_append.1 hx with hx | hx
    · exact names_noSlash _ x hx
    · exact hl x (by simp [hx])
  | relative he hd ht _ _ _ ih =>
    intro h hl
    refine ih h (fun x hx => ?_)
    rcases List.mem_append.1 hx with hx | hx
    · exact names_noSlash _ x hx
    · exact hl x (by simp [hx])

theorem walk_realDir {t : Tree} {s : List Str} (h : RealDir t s) : Walk t [] s.reverse s := by
  induction h with
  | root => exact .done
  | sub he _ h ht ih =>
    rw [List.reverse_cons]
    exact walk_then ih (.enter he h.isDir (.inl ht) .done)

theorem walk_real {t : Tree} {s : List Str} (h : RealPlace t s) : Walk t [] s.reverse s := by
  rcases h with h | ⟨c, s', rfl, he, _, h, ht⟩
  · exact walk_realDir h
  · rw [List.reverse_cons]
    exact walk_then (walk_realDir h) (.enter he h.isDir (.inr ht) .done)

theorem realDir_noSlash {t : Tree} {s : List Str} (h : RealDir t s) : ∀ x ∈ s, '/' ∉ x := by
  induction h with
  | root => simp
  | sub _ hc _ _ ih =>
    intro x hx
    rcases List.mem_cons.1 hx with rfl | hx
    · exact hc
    · exact ih x hx

theorem real_noSlash {t : Tree} {s : List Str} (h : RealPlace t s) : ∀ x ∈ s, '/' ∉ x := by
  rcases h with h | ⟨c, s', rfl, _, hc, h, _⟩
  · exact realDir_noSlash h
  · intro x hx
    rcases List.mem_cons.1 hx with rfl | hx
    · exact hc
    · exact realDir_noSlash h x hx

theorem leads_real {t : Tree} {p : Str} {s : List Str} (h : LeadsTo t p s) : RealPlace t s := by
  obtain ⟨q, rfl, h⟩ := h
  exact real_walk h (.inl .root) (names_noSlash q)

/-- The path of a place that a path leads to leads to it. -/
theorem leads_path {t : Tree} {p : Str} {s : List Str} (h : LeadsTo t p s) : LeadsTo t (pathOf s) s := by
  have hr := leads_real h
  refine ⟨_, rfl, ?_⟩
  by_cases hs : s = []
  · subst hs
    exact .stay (.inl rfl) (.inl rfl) .done
  · rw [names_join _ (by simpa using hs) (fun x hx => real_noSlash hr x (by simpa using hx))]
    exact walk_real hr

/-! ### Converting slashes -/

theorem names_double (p : Str) : Thin (names p) (names (replaceDouble p)) := by
  fun_induction replaceDouble p with
  | case1 r ih =>
    have e : names ('/' :: '/' :: r) = [] :: [] :: names r := by simp [names]
    have e' : names ('/' :: replaceDouble r) = [] :: names (replaceDouble r) := by simp [names]
    rw [e, e']
    exact .drop (.keep ih)
  | case2 a r h ih =>
    unfold names
    split
    · exact .keep ih
    · cases h1 : names r with
      | nil => exact absurd h1 (names_ne r)
      | cons x l =>
        cases h2 : names (replaceDouble r) with
        | nil => exact absurd h2 (names_ne _)
        | cons y m =>
          rw [h1, h2] at ih
          simp only
          by_cases hx : x = [] ∧ y ≠ []
          · exfalso
            obtain ⟨rfl, hy⟩ := hx
            cases r with
            | nil =>
              simp [replaceDouble, names] at h2
              exact hy h2.1
            | cons b r =>
              have hb : b = '/' := by
                unfold names at h1
                split at h1
                · assumption
                · split at h1 <;> cases h1
              subst hb
              have : ∃ z, replaceDouble ('/' :: r) = '/' :: z := by
                cases r with
                | nil => exact ⟨[], rfl⟩
                | cons d r =>
                  by_cases hd : d = '/'
                  · subst hd; exact ⟨replaceDouble r, by simp [replaceDouble]⟩
                  · exact ⟨replaceDouble (d :: r), by rw [replaceDouble]; intro z _ hz; exact hd (List.cons.inj hz).1⟩
              obtain ⟨z, hz⟩ := this
              rw [hz] at h2
              simp [names] at h2
              exact hy h2.1
          · cases ih with
            | keep ih => exact .keep ih
            | drop ih =>
              have hy : y = [] := by
                by_cases hy : y = []
                · exact hy
                · exact absurd ⟨rfl, hy⟩ hx
              subst hy
              exact .keep (ih.trans (.drop (Thin.refl m)))
  | case3 => exact Thin.refl _

theorem replaceDouble_abs (q : Str) : ∃ z, replaceDouble ('/' :: q) = '/' :: z := by
  cases q with
  | nil => exact ⟨[], rfl⟩
  | cons d r =>
    by_cases hd : d = '/'
    · subst hd; exact ⟨replaceDouble r, by simp [replaceDouble]⟩
    · exact ⟨replaceDouble (d :: r), by rw [replaceDouble]; intro z _ hz; exact hd (List.cons.inj hz).1⟩

theorem leads_double {t : Tree} {p : Str} {s : List Str} (h : LeadsTo t p s) : LeadsTo t (replaceDouble p) s := by
  obtain ⟨q, rfl, h⟩ := h
  obtain ⟨z, hz⟩ := replaceDouble_abs q
  refine ⟨z, hz, walk_thin h (Thin.tail ?_)⟩
  have := names_double ('/' :: q)
  rw [hz] at this
  simpa [names] using this

theorem leads_drop {t : Tree} {p : Str} {s : List Str} (h : LeadsTo t p s) : LeadsTo t (dropTrailingSlash p) s := by
  unfold dropTrailingSlash
  split
  · rename_i hc
    obtain ⟨q, rfl, h⟩ := h
    obtain ⟨h1, h2, _⟩ := hc
    have hq : q ≠ [] := by rintro rfl; simp at h1
    refine ⟨q.dropLast, by rw [List.dropLast_cons_of_ne_nil hq], ?_⟩
    have hl : q.getLast? = some '/' := by
      cases q with
      | nil => exact absurd rfl hq
      | cons a q => simpa [List.getLast?_cons_cons] using h2
    have hq' : q = q.dropLast ++ '/' :: [] := last_split hl
    rw [hq', names_slash] at h
    refine walk_thin h ?_
    have := Thin.prefix (names q.dropLast) (l := [[]]) (l' := []) (.drop .nil)
    simpa [names] using this
  · exact h

/-- Converting the slashes of a path without backslashes does not change what it leads to. -/
theorem leads_convert {t : Tree} {p : Str} {s : List Str} (w : World) (hb : '\\' ∉ p) (h : LeadsTo t p s) :
    LeadsTo t (convertToUnixSlashes w p) s := by
  have key : ∀ q, LeadsTo t q s → LeadsTo t (dropTrailingSlash (expandTilde w q)) s := by
    intro q hq
    obtain ⟨r, rfl, _⟩ := id hq
    exact leads_drop (by simpa [expandTilde] using hq)
  unfold convertToUnixSlashes
  simp only [slashify_eq hb]
  split
  · exact key _ (leads_double h)
  · exact key _ h

/-! ### C228 -/

theorem leads_end {t : Tree} {p : Str} {s : List Str} (h : LeadsTo t p s) (hd : IsDir t s) : LeadsTo t (endSlash p) s := by
  unfold endSlash
  split
  · obtain ⟨q, rfl, h⟩ := h
    refine ⟨q ++ ['/'], rfl, ?_⟩
    rw [names_slash]
    exact walk_then h (.stay (.inl rfl) hd .done)
  · exact h

/-- An entry of the table that does not change what a path leads to. -/
structure Keeps (t : Tree) (e : Str × Str) : Prop where
  same : ∃ s, LeadsTo t e.1 s ∧ LeadsTo t e.2 s
  end1 : e.1.getLast? = some '/'
  end2 : e.2.getLast? = some '/'
  notRoot : e.2 ≠ ['/']

/-- What lies behind a path that ends in a slash. -/
theorem leads_below {t : Tree} {a r : Str} {s d : List Str} (h : LeadsTo t a s) (he : a.getLast? = some '/') :
    LeadsTo t (a ++ r) d ↔ Walk t s (names r) d := by
  obtain ⟨q, rfl, h⟩ := h
  by_cases hq : q = []
  · subst hq
    have hs : [] = s := walk_det (.stay (.inl rfl) (.inl rfl) .done) h
    subst hs
    exact ⟨fun ⟨x, e, h⟩ => by cases e; exact h, fun h => ⟨_, rfl, h⟩⟩
  · have hl : q.getLast? = some '/' := by
      cases q with
      | nil => exact absurd rfl hq
      | cons a q => simpa [List.getLast?_cons_cons] using he
    obtain ⟨v, rfl⟩ : ∃ v, q = v ++ ['/'] := ⟨q.dropLast, last_split hl⟩
    rw [names_slash] at h
    obtain ⟨m, h1, h2⟩ := walk_append h _ _ rfl
    have hm : m = s := by
      cases h2 with
      | stay _ _ h => cases h; rfl
      | enter he => exact (he.1 rfl).elim
      | absolute he => exact (he.1 rfl).elim
      | relative he => exact (he.1 rfl).elim
    subst hm
    constructor
    · rintro ⟨x, e, h⟩
      rw [List.cons_append] at e
      cases e
      rw [List.append_assoc, List.singleton_append, names_slash] at h
      obtain ⟨m', h3, h4⟩ := walk_append h _ _ rfl
      rw [walk_det h1 h3]
      exact h4
    · intro h
      refine ⟨v ++ '/' :: r, by simp, ?_⟩
      rw [names_slash]
      exact walk_then h1 h

/-- The path without the slash at its end. -/
theorem leads_at {t : Tree} {a : Str} {s d : List Str} (h : LeadsTo t a s) (he : a.getLast? = some '/') (hn : a ≠ ['/']) :
    LeadsTo t a.dropLast d ↔ d = s := by
  obtain ⟨q, rfl, h⟩ := h
  have hq : q ≠ [] := by rintro rfl; exact hn rfl
  have hl : q.getLast? = some '/' := by
    cases q with
    | nil => exact absurd rfl hq
    | cons a q => simpa [List.getLast?_cons_cons] using he
  obtain ⟨v, rfl⟩ : ∃ v, q = v ++ ['/'] := ⟨q.dropLast, last_split hl⟩
  rw [names_slash] at h
  obtain ⟨m, h1, h2⟩ := walk_append h _ _ rfl
  have hm : m = s := by
    cases h2 with
    | stay _ _ h => cases h; rfl
    | enter he => exact (he.1 rfl).elim
    | absolute he => exact (he.1 rfl).elim
    | relative he => exact (he.1 rfl).elim
  subst hm
  have e : ('/' :: (v ++ ['/'])).dropLast = '/' :: v := by
    rw [List.dropLast_cons_of_ne_nil (by simp), List.dropLast_concat]
  rw [e]
  constructor
  · rintro ⟨x, e, h⟩
    cases e
    exact walk_det h h1
  · rintro rfl
    exact ⟨v, rfl, h1⟩

theorem startsWith_split {s p : Str} (h : startsWith s p = true) : s = p ++ s.drop p.length := by
  unfold startsWith at h
  have h' : s.take p.length = p := by simpa using h
  conv => lhs; rw [← List.take_append_drop p.length s, h']

/-- One translation. -/
theorem step_keeps {t : Tree} {e : Str × Str} (hk : Keeps t e) {q : Str} (hq : q.getLast? = some '/') (hn : q ≠ ['/']) :
    let q' := if startsWith q e.1 then e.2 ++ q.drop e.1.length else q
    q'.getLast? = some '/' ∧ q' ≠ ['/'] ∧ ∀ d, LeadsTo t q'.dropLast d ↔ LeadsTo t q.dropLast d := by
  simp only
  split
  · rename_i hs
    have hq' := startsWith_split hs
    generalize q.drop e.1.length = r at hq' ⊢
    obtain ⟨s, h1, h2⟩ := hk.same
    by_cases hr : r = []
    · subst hr
      rw [List.append_nil] at hq' ⊢
      subst hq'
      exact ⟨hk.end2, hk.notRoot, fun d => by rw [leads_at h2 hk.end2 hk.notRoot, leads_at h1 hq hn]⟩
    · obtain ⟨r', rfl⟩ : ∃ r', r = r' ++ ['/'] := by
        refine ⟨r.dropLast, ?_⟩
        have hl : r.getLast? = some '/' := by
          rw [hq', List.getLast?_append] at hq
          rw [List.getLast?_eq_some_getLast hr] at hq ⊢
          exact hq
        exact last_split hl
      refine ⟨by simp, ?_, fun d => ?_⟩
      · intro e0
        have := congrArg List.length e0
        have h2' := hk.end2
        cases h3 : e.2 with
        | nil => rw [h3] at h2'; cases h2'
        | cons => rw [h3] at this; simp at this
      · rw [hq', ← List.append_assoc, ← List.append_assoc, List.dropLast_concat, List.dropLast_concat, leads_below h2 hk.end2, leads_below h1 hk.end1]
  · exact ⟨hq, hn, fun _ => Iff.rfl⟩

theorem fold_keeps {t : Tree} : ∀ (m : List (Str × Str)), (∀ e ∈ m, Keeps t e) → ∀ (q : Str), q.getLast? = some '/' → q ≠ ['/'] →
    ∀ d, LeadsTo t (m.foldl (fun q e => if startsWith q e.1 then e.2 ++ q.drop e.1.length else q) q).dropLast d ↔ LeadsTo t q.dropLast d
  | [], _, _, _, _, _ => Iff.rfl
  | e :: m, hm, q, hq, hn, d => by
    obtain ⟨h1, h2, h3⟩ := step_keeps (hm e (by simp)) hq hn
    rw [List.foldl_cons, fold_keeps m (fun e he => hm e (by simp [he])) _ h1 h2, h3]

theorem check_keeps {t : Tree} {w : World} (hm : ∀ e ∈ w.translation, Keeps t e) (p : Str) (d : List Str) :
    LeadsTo t (checkTranslationPath w p) d ↔ LeadsTo t p d := by
  unfold checkTranslationPath
  split
  · exact Iff.rfl
  · rename_i h
    rw [fold_keeps _ hm _ (by simp) (by intro e; have := congrArg List.length e; simp at this; subst this; simp at h), List.dropLast_concat]

theorem mem_insert {m : OMap Str Str} {k v : Str} {e : Str × Str} (h : e ∈ OMap.insert m k v) : e = (k, v) ∨ e ∈ m := by
  induction m with
  | nil => simp [OMap.insert] at h; exact .inl h
  | cons x m ih =>
    obtain ⟨k', v'⟩ := x
    unfold OMap.insert at h
    split at h
    · rcases List.mem_cons.1 h with h | h
      · exact .inl h
      · exact .inr h
    · split at h
      · rcases List.mem_cons.1 h with h | h
        · exact .inr (by simp [h])
        · rcases ih h with h | h
          · exact .inl h
          · exact .inr (by simp [h])
      · rcases List.mem_cons.1 h with h | h
        · exact .inl h
        · exact .inr (by simp [h])

theorem endSlash_end {p : Str} (h : p ≠ []) : (endSlash p).getLast? = some '/' := by
  unfold endSlash
  split
  · simp
  · rename_i hc
    by_cases e : p.getLast? = some '/'
    · exact e
    · exact absurd ⟨h, e⟩ hc

theorem endSlash_root {p : Str} (h : endSlash p = ['/']) : p = ['/'] ∨ p = [] := by
  unfold endSlash at h
  split at h
  · rename_i hc
    cases p with
    | nil => exact absurd rfl hc.1
    | cons a p => have := congrArg List.length h; simp at this
  · exact .inl h

theorem root_leads {t : Tree} {s : List Str} (h : LeadsTo t ['/'] s) : s = [] := by
  obtain ⟨q, e, h⟩ := h
  cases e
  exact (walk_det (.stay (.inl rfl) (.inl rfl) .done) h).symm

/-- Adding a translation between paths that lead to the same place. -/
theorem add_keeps {t : Tree} {w : World} (hd : DirSound t w) (hm : ∀ e ∈ w.translation, Keeps t e) {a b : Str} {s : List Str}
    (ha : LeadsTo t (convertToUnixSlashes w a) s) (hb : LeadsTo t (convertToUnixSlashes w b) s)
    (hr : convertToUnixSlashes w b = ['/'] → convertToUnixSlashes w a = ['/']) :
    ∀ e ∈ (addTranslationPath w a b).translation, Keeps t e := by
  unfold addTranslationPath
  simp only
  split
  · rename_i hc
    intro e he
    rcases mem_insert he with rfl | he
    · obtain ⟨q, hq, _⟩ := id ha
      obtain ⟨q', hq', _⟩ := id hb
      obtain ⟨s', hs', hdir⟩ := hd (convertToUnixSlashes w a) (by rw [hq]; rfl) (by have := hc.1; unfold fileIsDirectory at this; simp at this; exact this.2)
      have := leads_det ha hs'
      subst this
      refine ⟨⟨s, leads_end ha hdir, leads_end hb hdir⟩, endSlash_end (by rw [hq]; simp), endSlash_end (by rw [hq']; simp), ?_⟩
      intro e0
      rcases endSlash_root e0 with e1 | e1
      · exact hc.2.2.2.1 (by rw [e1, hr e1])
      · rw [hq'] at e1; cases e1
    · exact hm e he
  · exact hm

theorem add_same (w : World) (a b : Str) : (addTranslationPath w a b).isDir = w.isDir ∧ (addTranslationPath w a b).env = w.env ∧
    (addTranslationPath w a b).cwd = w.cwd ∧ (addTranslationPath w a b).pwdir = w.pwdir := by
  unfold addTranslationPath
  simp only
  split <;> exact ⟨rfl, rfl, rfl, rfl⟩

theorem sound_leads {t : Tree} {rp : Str → Option Str} (hs : Sound t rp) {p d : Str} (hp : p.head? = some '/') (h : rp p = some d) :
    ∃ s, d = pathOf s ∧ LeadsTo t p s ∧ LeadsTo t d s := by
  obtain ⟨s, rfl, h1⟩ := hs p d hp h
  exact ⟨s, rfl, h1, leads_path h1⟩

/-! #### Characters and first characters of the paths that are tried -/

theorem mem_replaceDouble (p : Str) : ∀ c ∈ replaceDouble p, c ∈ p := by
  fun_induction replaceDouble p with
  | case1 r ih =>
    intro c hc
    rcases List.mem_cons.1 hc with rfl | hc
    · simp
    · simp [ih c hc]
  | case2 a r h ih =>
    intro c hc
    rcases List.mem_cons.1 hc with rfl | hc
    · simp
    · simp [ih c hc]
  | case3 => intro c hc; cases hc

theorem head_replaceDouble (p : Str) : (replaceDouble p).head? = p.head? := by
  fun_induction replaceDouble p <;> rfl

theorem mem_dropTrailing (p : Str) : ∀ c ∈ dropTrailingSlash p, c ∈ p := by
  unfold dropTrailingSlash
  split
  · intro c hc; exact List.dropLast_subset p hc
  · intro c hc; exact hc

theorem head_dropTrailing (p : Str) : (dropTrailingSlash p).head? = p.head? := by
  unfold dropTrailingSlash
  split
  · rename_i h
    cases p with
    | nil => rfl
    | cons a p => cases p with
      | nil => simp at h
      | cons b p => rfl
  · rfl

theorem convert_chars (w : World) {p : Str} (hb : '\\' ∉ p) (ht : p.head? ≠ some '~') :
    (∀ c ∈ convertToUnixSlashes w p, c ∈ p) ∧ (convertToUnixSlashes w p).head? = p.head? := by
  have key : ∀ q : Str, (∀ c ∈ q, c ∈ p) → q.head? = p.head? → (∀ c ∈ dropTrailingSlash (expandTilde w q), c ∈ p) ∧ (dropTrailingSlash (expandTilde w q)).head? = p.head? := by
    intro q h1 h2
    have e : expandTilde w q = q := by
      cases q with
      | nil => rfl
      | cons a q =>
        have : a ≠ '~' := by rintro rfl; exact ht (by rw [← h2]; rfl)
        unfold expandTilde
        split
        · rename_i h; exact absurd (List.cons.inj h).1 this
        · rfl
    rw [e]
    exact ⟨fun c hc => h1 c (mem_dropTrailing q c hc), by rw [head_dropTrailing, h2]⟩
  unfold convertToUnixSlashes
  simp only [slashify_eq hb]
  split
  · exact key _ (mem_replaceDouble p) (head_replaceDouble p)
  · exact key _ (fun _ h => h) rfl

theorem beforeLast_prefix {c : Char} {s r : Str} (h : beforeLast c s = some r) : ∃ u, s = r ++ c :: u := by
  unfold beforeLast at h
  split at h
  · cases h
  · rename_i d x hx
    cases h
    refine ⟨(s.reverse.takeWhile (· != c)).reverse, ?_⟩
    have hd : d = c := by
      have : ∀ l : Str, ∀ y m, l.dropWhile (· != c) = y :: m → y = c := by
        intro l
        induction l with
        | nil => intro y m h; cases h
        | cons a l ih =>
          intro y m h
          rw [List.dropWhile_cons] at h
          split at h
          · exact ih y m h
          · rename_i hne
            cases h
            simpa using hne
      exact this _ _ _ hx
    have := List.takeWhile_append_dropWhile (p := (· != c)) (l := s.reverse)
    rw [hx] at this
    have h2 := congrArg List.reverse this
    rw [List.reverse_reverse, List.reverse_append, List.reverse_cons, hd] at h2
    exact h2.symm.trans (by simp)

/-- No backslash and no home directory. -/
def Simple (p : Str) : Prop := '\\' ∉ p ∧ p.head? ≠ some '~'

theorem simple_parent (w : World) {p : Str} (h : Simple p) : Simple (getFilenamePath w p) := by
  obtain ⟨h1, h2⟩ := convert_chars w h.1 h.2
  unfold getFilenamePath
  split
  · exact ⟨by simp, by simp⟩
  · rename_i ret hr
    obtain ⟨u, hu⟩ := beforeLast_prefix hr
    have hb : '\\' ∉ ret := fun hm => h.1 (h1 _ (by rw [hu]; simp [hm]))
    have ht : ret.head? ≠ some '~' := by
      intro e
      cases ret with
      | nil => cases e
      | cons a ret =>
        rw [hu] at h2
        exact h.2 (by rw [← h2]; exact e)
    split
    · refine ⟨by simp [hb], ?_⟩
      cases ret with
      | nil => simp
      | cons a ret => exact ht
    · split
      · exact ⟨by decide, by decide⟩
      · exact ⟨hb, ht⟩

/-- What the loop finds is a logical name of a physical path. -/
theorem logical_found (rp : Str → Option Str) (w : World) : ∀ (n : Nat) (cwd pwd : Str) (best : Str × Str) (c p : Str), Simple pwd →
    logical rp w n cwd pwd best = some (c, p) → (c, p) = best ∨ (rp p = some c ∧ c ≠ p ∧ Simple p)
  | 0, _, _, _, _, _, _, h => by cases h
  | n + 1, cwd, pwd, best, c, p, hs, h => by
    unfold logical at h
    split at h
    · rename_i hc
      rcases logical_found rp w n _ _ _ c p (simple_parent w hs) h with h | h
      · obtain ⟨e1, e2⟩ := Prod.mk.inj h
        subst e1 e2
        refine .inr ⟨?_, hc.2, hs⟩
        have h1 := hc.1
        unfold realpathS at h1
        cases hr : rp p with
        | none => rw [hr] at h1; exact absurd h1 hc.2
        | some d => rw [hr] at h1; rw [h1]; rfl
      · exact .inr h
    · cases h; exact .inl rfl

/-- No name in the tree has a backslash. -/
def NoBack (t : Tree) : Prop := ∀ c s, t (c :: s) ≠ none → '\\' ∉ c

theorem realDir_noBack {t : Tree} (hn : NoBack t) {s : List Str} (h : RealDir t s) : ∀ x ∈ s, '\\' ∉ x := by
  induction h with
  | root => simp
  | sub _ _ _ ht ih =>
    intro x hx
    rcases List.mem_cons.1 hx with rfl | hx
    · exact hn _ _ (by rw [ht]; simp)
    · exact ih x hx

theorem pathOf_noBack {t : Tree} (hn : NoBack t) {s : List Str} (h : RealPlace t s) : '\\' ∉ pathOf s := by
  have hx : ∀ x ∈ s, '\\' ∉ x := by
    rcases h with h | ⟨c, s', rfl, _, _, h, ht⟩
    · exact realDir_noBack hn h
    · intro x hx
      rcases List.mem_cons.1 hx with rfl | hx
      · exact hn _ _ (by rw [ht]; simp)
      · exact realDir_noBack hn h x hx
  unfold pathOf
  have key : ∀ l : List Str, (∀ x ∈ l, '\\' ∉ x) → '\\' ∉ slashJoin l := by
    intro l hl
    cases l with
    | nil => simp [slashJoin]
    | cons a l =>
      unfold slashJoin
      intro hm
      rcases List.mem_append.1 hm with hm | hm
      · exact hl a (by simp) hm
      · obtain ⟨y, hy, hm⟩ := List.mem_flatten.1 hm
        obtain ⟨z, hz, rfl⟩ := List.mem_map.1 hy
        rcases List.mem_cons.1 hm with hm | hm
        · exact absurd hm (by decide)
        · exact hl z (by simp [hz]) hm
  intro hm
  rcases List.mem_cons.1 hm with hm | hm
  · exact absurd hm (by decide)
  · exact key _ (fun x hx' => hx x (by simpa using hx')) hm

theorem pathOf_root {t : Tree} {s : List Str} (h : RealPlace t s) (e : pathOf s = ['/']) : s = [] := by
  cases hs : s.reverse with
  | nil => simpa using hs
  | cons a l =>
    unfold pathOf at e
    rw [hs] at e
    have := (List.cons.inj e).2
    have ha : a ∈ s := by have : a ∈ s.reverse := by rw [hs]; simp
                          simpa using this
    have hne : a ≠ [] := by
      rcases h with h | ⟨c, s', rfl, hc, _, h, _⟩
      · have key : ∀ s, RealDir t s → ∀ x ∈ s, x ≠ [] := by
          intro s h
          induction h with
          | root => simp
          | sub he _ _ _ ih =>
            intro x hx
            rcases List.mem_cons.1 hx with rfl | hx
            · exact he.1
            · exact ih x hx
        exact key _ h a ha
      · have key : ∀ s, RealDir t s → ∀ x ∈ s, x ≠ [] := by
          intro s h
          induction h with
          | root => simp
          | sub he _ _ _ ih =>
            intro x hx
            rcases List.mem_cons.1 hx with rfl | hx
            · exact he.1
            · exact ih x hx
        rcases List.mem_cons.1 ha with rfl | ha
        · exact hc.1
        · exact key _ h a ha
    cases a with
    | nil => exact absurd rfl hne
    | cons x a => simp [slashJoin] at this

/-- Adding the name of a place together with a path that leads to it. -/
theorem add_place {t : Tree} {w : World} (hn : NoBack t) (hd : DirSound t w) (hm : ∀ e ∈ w.translation, Keeps t e) {b : Str} {s : List Str}
    (hb : '\\' ∉ b) (h : LeadsTo t b s) : ∀ e ∈ (addTranslationPath w (pathOf s) b).translation, Keeps t e := by
  have hr := leads_real h
  have ha := leads_convert w (pathOf_noBack hn hr) (leads_path h)
  have hb' := leads_convert w hb h
  refine add_keeps hd hm ha hb' fun e => ?_
  rw [e] at hb'
  have := root_leads hb'
  subst this
  rfl

theorem convert_tmp (w : World) : convertToUnixSlashes w (c!"/tmp/") = c!"/tmp" := rfl

theorem collapse_tmp (w : World) (hw : w.translation = []) : collapseFullPath w (c!"/tmp/") = c!"/tmp" := by
  unfold collapseFullPath collapseFullPathF splitPathF
  have : splitRoot (c!"/tmp/") = (c!"/", c!"tmp/") := by decide +kernel
  rw [this]
  simp only [show (c!"/").head? ≠ some '~' by decide, if_false]
  have : restComponents (c!"tmp/") = [c!"tmp", []] := by decide +kernel
  rw [this]
  simp only [show (c!"/") ≠ [] by decide, if_false]
  unfold checkTranslationPath
  rw [hw]
  decide +kernel

theorem init_tmp {t : Tree} {rp : Str → Option Str} {w : World} (hn : NoBack t) (hs : Sound t rp) (hd : DirSound t w) (hw : w.translation = []) :
    ∀ e ∈ (addKeepPath rp w (c!"/tmp/")).translation, Keeps t e := by
  unfold addKeepPath
  rw [collapse_tmp w hw]
  unfold realpathS
  cases hr : rp (c!"/tmp") with
  | none =>
    intro e he
    unfold addTranslationPath at he
    rw [Option.getD_none, convert_tmp, show convertToUnixSlashes w (c!"/tmp") = c!"/tmp" from rfl] at he
    simp [hw] at he
  | some d =>
    obtain ⟨s, rfl, h⟩ := hs _ _ rfl hr
    intro e he
    rw [Option.getD_some] at he
    have hc : (addTranslationPath w (pathOf s) (c!"/tmp/")) = addTranslationPath w (pathOf s) (c!"/tmp") := by
      unfold addTranslationPath
      rw [convert_tmp, show convertToUnixSlashes w (c!"/tmp") = c!"/tmp" from rfl]
    rw [hc] at he
    exact add_place hn hd (by rw [hw]; simp) (by decide) h e he

theorem add_relative (w : World) {a b : Str} (hb : Simple b) (hr : b.head? ≠ some '/') : addTranslationPath w a b = w := by
  obtain ⟨_, h2⟩ := convert_chars w hb.1 hb.2
  have : fileIsFullPath (convertToUnixSlashes w b) = false := by
    unfold fileIsFullPath
    rw [h2]
    simp only [Bool.or_eq_false_iff, beq_eq_false_iff_ne]
    exact ⟨hb.2, hr⟩
  unfold addTranslationPath
  simp only
  rw [if_neg (by rw [this]; simp)]

theorem init_keeps {t : Tree} {rp : Str → Option Str} {n : Nat} {w w' : World} (hn : NoBack t) (hs : Sound t rp) (hd : DirSound t w)
    (hp : ∀ pwd, w.env (c!"PWD") = some pwd → Simple pwd) (h : classInitialize rp n w = some w') :
    (∀ e ∈ w'.translation, Keeps t e) ∧ DirSound t w' := by
  unfold classInitialize at h
  have h0 := init_tmp (w := { w with translation := [] }) hn hs hd rfl
  obtain ⟨e1, e2, e3, _⟩ := add_same { w with translation := [] } (realpathS rp (collapseFullPath { w with translation := [] } (c!"/tmp/"))) (c!"/tmp/")
  change (addKeepPath rp { w with translation := [] } (c!"/tmp/")).isDir = w.isDir at e1
  change (addKeepPath rp { w with translation := [] } (c!"/tmp/")).env = w.env at e2
  generalize addKeepPath rp { w with translation := [] } (c!"/tmp/") = w1 at *
  have hd1 : DirSound t w1 := by unfold DirSound; rw [e1]; exact hd
  simp only at h
  split at h
  · rename_i pwd cwd hpwd hcwd
    split at h
    · cases h
    · rename_i c p hl
      cases h
      split
      · rename_i hne
        rcases logical_found rp w1 n cwd pwd ([], []) c p (hp pwd (by rw [← e2]; exact hpwd)) hl with h | ⟨h1, h2, h3⟩
        · cases h; exact absurd rfl hne.1
        · refine ⟨?_, by unfold DirSound; rw [(add_same w1 c p).1]; exact hd1⟩
          by_cases ha : p.head? = some '/'
          · obtain ⟨s, rfl, hq⟩ := hs p c ha h1
            exact add_place hn hd1 h0 h3.1 hq
          · rw [add_relative w1 h3 ha]; exact h0
      · exact ⟨h0, hd1⟩
  · cases h; exact ⟨h0, hd1⟩

theorem collapse_check {w : World} {q : Str} (hq : Canonical q) (n : Nat) (base : Option Str) :
    collapseFullPathF w (n + 1) q base = some (checkTranslationPath w q) := by
  obtain ⟨root, names, hr, hn, rfl⟩ := hq
  obtain ⟨h1, h2⟩ := canonical_split hr hn
  have hne : root ≠ [] := by rcases hr with rfl | rfl <;> simp
  have htil : root.head? ≠ some '~' := by rcases hr with rfl | rfl <;> simp
  have hs : splitPathF w (n + 1) (root ++ slashJoin names) = some (root :: names) := by
    unfold splitPathF
    rw [h1]
    simp only [if_neg htil, h2]
  have ha : appendComponents [] (root :: names) = root :: names := by
    have e : appendComponents [] (root :: names) = appendComponents [root] names := by
      rcases hr with rfl | rfl <;> rfl
    rw [e, append_plain_id root names [] hn]; rfl
  unfold collapseFullPathF
  simp only [hs, if_neg hne, ha, joinPath_cons]

theorem fold_head {t : Tree} : ∀ (m : List (Str × Str)), (∀ e ∈ m, Keeps t e) → ∀ (q : Str), q.getLast? = some '/' → q ≠ ['/'] → q.head? = some '/' →
    (m.foldl (fun q e => if startsWith q e.1 then e.2 ++ q.drop e.1.length else q) q).dropLast.head? = some '/'
  | [], _, q, _, h2, h3 => by
    cases q with
    | nil => cases h3
    | cons a q => cases q with
      | nil => cases h3; exact absurd rfl h2
      | cons b q => exact h3
  | e :: m, hm, q, h1, h2, h3 => by
    obtain ⟨h4, h5, _⟩ := step_keeps (hm e (by simp)) h1 h2
    rw [List.foldl_cons]
    refine fold_head m (fun e he => hm e (by simp [he])) _ h4 h5 ?_
    split
    · obtain ⟨s, _, z, hz, _⟩ := (hm e (by simp)).same
      rw [hz]
      rfl
    · exact h3

theorem check_head {t : Tree} {w : World} (hm : ∀ e ∈ w.translation, Keeps t e) {p : Str} (hp : p.head? = some '/') :
    (checkTranslationPath w p).head? = some '/' := by
  unfold checkTranslationPath
  split
  · exact hp
  · rename_i h
    refine fold_head _ hm _ (by simp) (by intro e; have := congrArg List.length e; simp at this; subst this; simp at h) ?_
    cases p with
    | nil => cases hp
    | cons a p => exact hp

theorem canonical_head {q : Str} (h : Canonical q) : q.head? = some '/' := by
  obtain ⟨root, ns, hr, _, rfl⟩ := h
  rcases hr with rfl | rfl <;> rfl

theorem canonical_noBack {q : Str} (h : Canonical q) : '\\' ∉ q := by
  obtain ⟨root, ns, hr, hn, rfl⟩ := h
  intro hm
  rcases List.mem_append.1 hm with hm | hm
  · rcases hr with rfl | rfl <;> simp at hm
  · cases ns with
    | nil => cases hm
    | cons a l =>
      unfold slashJoin at hm
      rcases List.mem_append.1 hm with hm | hm
      · exact absurd ((hn a (by simp)).noSlash _ hm) (by decide)
      · obtain ⟨y, hy, hm⟩ := List.mem_flatten.1 hm
        obtain ⟨z, hz, rfl⟩ := List.mem_map.1 hy
        rcases List.mem_cons.1 hm with hm | hm
        · exact absurd hm (by decide)
        · exact absurd ((hn z (by simp [hz])).noSlash _ hm) (by decide)

/-- The tables there can be: set up before main, then any number of calls of AddKeepPath with canonical paths that can be resolved. -/
inductive Keeping (t : Tree) (rp : Str → Option Str) (w0 : World) : World → Prop where
  | start {n : Nat} {w : World} : classInitialize rp n w0 = some w → Keeping t rp w0 w
  | keep {w : World} {d : Str} : Keeping t rp w0 w → Canonical d → rp (collapseFullPath w d) ≠ none → Keeping t rp w0 (addKeepPath rp w d)

theorem keeping_keeps {t : Tree} {rp : Str → Option Str} {w0 : World} (hn : NoBack t) (hs : Sound t rp) (hd : DirSound t w0)
    (hp : ∀ pwd, w0.env (c!"PWD") = some pwd → Simple pwd) {w : World} (h : Keeping t rp w0 w) : (∀ e ∈ w.translation, Keeps t e) ∧ DirSound t w := by
  induction h with
  | start h => exact init_keeps hn hs hd hp h
  | @keep w d _ hc hr ih =>
    have hcol : collapseFullPath w d = checkTranslationPath w d := by
      unfold collapseFullPath
      rw [collapse_check hc 1]
      rfl
    unfold addKeepPath
    refine ⟨?_, by unfold DirSound; rw [(add_same w _ d).1]; exact ih.2⟩
    unfold realpathS
    rw [hcol] at hr ⊢
    cases hx : rp (checkTranslationPath w d) with
    | none => exact absurd hx hr
    | some x =>
      obtain ⟨s, rfl, h1⟩ := hs _ _ (check_head ih.1 (canonical_head hc)) hx
      rw [Option.getD_some]
      exact add_place hn ih.2 ih.1 (canonical_noBack hc) ((check_keeps ih.1 d s).1 h1)

/-- What holds of C228: no name in the tree has a backslash, and PWD neither has one nor starts with a tilde; also after later calls of
    AddKeepPath.  Missing: other trees and values of PWD. -/
theorem C228_partial (t : Tree) (rp : Str → Option Str) (w0 w : World) (hn : NoBack t) (hs : Sound t rp) (hd : DirSound t w0)
    (hp : ∀ pwd, w0.env (c!"PWD") = some pwd → Simple pwd) (h : Keeping t rp w0 w) (p : Str) (s : List Str) :
    LeadsTo t (checkTranslationPath w p) s ↔ LeadsTo t p s :=
  check_keeps (keeping_keeps hn hs hd hp h).1 p s

/-- The same for CollapseFullPath: with the table it leads to the same place as without. -/
theorem C228_collapse_partial (t : Tree) (rp : Str → Option Str) (w0 w : World) (hn : NoBack t) (hs : Sound t rp) (hd : DirSound t w0)
    (hp : ∀ pwd, w0.env (c!"PWD") = some pwd → Simple pwd) (h : Keeping t rp w0 w) (n : Nat) (p : Str) (base : Option Str) (q q0 : Str)
    (h1 : collapseFullPathF w n p base = some q) (h0 : collapseFullPathF { w with translation := [] } n p base = some q0) (s : List Str) :
    LeadsTo t q s ↔ LeadsTo t q0 s := by
  have hsplit : ∀ n p, splitPathF { w with translation := [] } n p = splitPathF w n p := by
    intro n
    induction n with
    | zero => intro p; rfl
    | succ n ih => intro p; unfold splitPathF; simp only [ih]; rfl
  have hid : ∀ p, checkTranslationPath { w with translation := [] } p = p := by
    intro p
    unfold checkTranslationPath
    split
    · rfl
    · simp
  have hq : q = checkTranslationPath w q0 := by
    unfold collapseFullPathF at h0 h1
    simp only [hsplit, hid] at h0
    split at h1
    · cases h1
    · rename_i comps hc
      rw [hc] at h0
      cases comps with
      | nil => cases h1
      | cons c0 l =>
        simp only at h0 h1
        split at h1
        · cases h1
        · rename_i out ho
          rw [ho] at h0
          cases h0
          cases h1
          rfl
  rw [hq]
  exact C228_partial t rp w0 w hn hs hd hp h q0 s

end Vital.Sys.Real
