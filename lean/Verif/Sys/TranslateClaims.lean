import Verif.Sys.TranslateProps
/-
  Concrete trees for C228; C229 and C230.
-/
namespace Vital.Sys.Real
open Vital Vital.Sys

/-! ### A realpath() for examples: gives up after a number of steps -/

def isDirB (t : Tree) (s : List Str) : Bool := s.isEmpty || match t s with
  | some .dir => true
  | _ => false

def walkF (t : Tree) : Nat → List Str → List Str → Option (List Str)
  | 0, _, _ => none
  | _ + 1, s, [] => some s
  | n + 1, s, c :: l =>
    if isDirB t s = false then none
    else if c = [] ∨ c = ['.'] then walkF t n s l
    else if c = ['.', '.'] then walkF t n s.tail l
    else match t (c :: s) with
      | none => none
      | some .dir => walkF t n (c :: s) l
      | some .file => walkF t n (c :: s) l
      | some (.link []) => none
      | some (.link (x :: g)) => if x = '/' then walkF t n [] (names g ++ l) else walkF t n s (names (x :: g) ++ l)

def rpOf (t : Tree) : Str → Option Str
  | '/' :: q => (walkF t 60 [] (names q)).map pathOf
  | _ => none

def isDirOf (t : Tree) : Str → Bool
  | '/' :: q => match walkF t 60 [] (names q) with
    | some s => isDirB t s
    | none => false
  | _ => false

theorem isDirB_spec {t : Tree} {s : List Str} (h : isDirB t s = true) : IsDir t s := by
  unfold isDirB at h
  cases s with
  | nil => exact .inl rfl
  | cons c s =>
    simp at h
    split at h
    · rename_i h'; exact .inr h'
    · cases h

theorem walkF_sound {t : Tree} : ∀ (n : Nat) (s l r : List Str), walkF t n s l = some r → Walk t s l r
  | 0, _, _, _, h => by cases h
  | n + 1, s, [], r, h => by cases h; exact .done
  | n + 1, s, c :: l, r, h => by
    unfold walkF at h
    split at h
    · cases h
    · rename_i hd
      have hd := isDirB_spec (by simpa using hd)
      split at h
      · rename_i hc; exact .stay hc hd (walkF_sound n _ _ _ h)
      · rename_i hc
        split at h
        · rename_i hu; subst hu; exact .up hd (walkF_sound n _ _ _ h)
        · rename_i hu
          have he : Entry c := ⟨fun e => hc (.inl e), fun e => hc (.inr e), hu⟩
          split at h
          · cases h
          · rename_i ht; exact .enter he hd (.inl ht) (walkF_sound n _ _ _ h)
          · rename_i ht; exact .enter he hd (.inr ht) (walkF_sound n _ _ _ h)
          · cases h
          · rename_i x g ht
            split at h
            · rename_i hx; subst hx; exact .absolute he hd ht (walkF_sound n _ _ _ h)
            · rename_i hx; exact .relative he hd ht (by simpa using hx) (by simp) (walkF_sound n _ _ _ h)

theorem rpOf_sound (t : Tree) : Sound t (rpOf t) := by
  intro p d hp h
  cases p with
  | nil => cases hp
  | cons a q =>
    cases hp
    simp only [rpOf] at h
    cases hw : walkF t 60 [] (names q) with
    | none => rw [hw] at h; cases h
    | some s => rw [hw] at h; cases h; exact ⟨s, rfl, q, rfl, walkF_sound _ _ _ _ hw⟩

theorem isDirOf_sound (t : Tree) (w : World) (h : w.isDir = isDirOf t) : DirSound t w := by
  intro p hp hd
  rw [h] at hd
  cases p with
  | nil => cases hp
  | cons a q =>
    cases hp
    simp only [isDirOf] at hd
    cases hw : walkF t 60 [] (names q) with
    | none => rw [hw] at hd; cases hd
    | some s => rw [hw] at hd; exact ⟨s, ⟨q, rfl, walkF_sound _ _ _ _ hw⟩, isDirB_spec hd⟩

/-! ### C228: a name with a backslash -/

/-- /real is a directory and "/li\nk" a link to it. -/
def backTree : Tree := fun s => if s = [c!"real"] then some .dir else if s = [c!"li\\nk"] then some (.link (c!"/real")) else none
def backWorld : World := { env := fun k => if k = c!"PWD" then some (c!"/li\\nk") else none, cwd := some (c!"/real"), isDir := isDirOf backTree }

/-- C228 is false of the code: with PWD=/li\nk the directory /real becomes /li/nk, which is not there. -/
theorem C228_refuted : ¬ C228_statement := by
  intro h
  have h1 : (classInitialize (rpOf backTree) 9 backWorld).map (fun w => checkTranslationPath w (c!"/real")) = some (c!"/li/nk") := by decide +kernel
  cases hw : classInitialize (rpOf backTree) 9 backWorld with
  | none => rw [hw] at h1; cases h1
  | some w' =>
    rw [hw] at h1
    have h2 := (h backTree _ 9 backWorld w' (rpOf_sound _) (isDirOf_sound _ _ rfl) hw (c!"/real") [c!"real"] rfl).2
      ⟨_, rfl, walkF_sound 9 _ _ _ (by decide +kernel)⟩
    have e0 : checkTranslationPath w' (c!"/real") = c!"/li/nk" := Option.some.inj h1
    rw [e0] at h2
    obtain ⟨q, e, h2⟩ := h2
    cases e
    have hn : names (c!"li/nk") = [c!"li", c!"nk"] := by decide +kernel
    have hn' : names ['l', 'i', '/', 'n', 'k'] = [c!"li", c!"nk"] := hn
    rw [hn'] at h2
    have ht : backTree (c!"li" :: []) = none := by decide +kernel
    cases h2 with
    | stay hc => rcases hc with h | h <;> exact absurd h (by decide)
    | enter _ _ h => rw [ht] at h; rcases h with h | h <;> cases h
    | absolute _ _ h => rw [ht] at h; cases h
    | relative _ _ h => rw [ht] at h; cases h

/-- A tree with a link to a home directory and one for /tmp. -/
def homeTree : Tree := fun s =>
  if s = [c!"private"] ∨ s = [c!"tmp", c!"private"] ∨ s = [c!"data"] ∨ s = [c!"me", c!"data"] ∨ s = [c!"src", c!"me", c!"data"] then some .dir
  else if s = [c!"tmp"] then some (.link (c!"private/tmp")) else if s = [c!"home"] then some (.link (c!"/data")) else none
def homeWorld : World := { env := fun k => if k = c!"PWD" then some (c!"/home/me/src") else none, cwd := some (c!"/data/me/src"), isDir := isDirOf homeTree }

theorem homeTree_noBack : NoBack homeTree := by
  intro c s h
  unfold homeTree at h
  split at h
  · rename_i hc
    rcases hc with e | e | e | e | e <;> obtain ⟨rfl, _⟩ := List.cons.inj e <;> decide
  · split at h
    · rename_i e; obtain ⟨rfl, _⟩ := List.cons.inj e; decide
    · split at h
      · rename_i e; obtain ⟨rfl, _⟩ := List.cons.inj e; decide
      · exact absurd rfl h

/-- A concrete case for C228: the logical names of /tmp and of the home directory are kept. -/
example : ∃ w, Keeping homeTree (rpOf homeTree) homeWorld w ∧ checkTranslationPath w (c!"/private/tmp/x") = c!"/tmp/x" ∧
    checkTranslationPath w (c!"/data/me/a") = c!"/home/me/a" ∧ (∀ s, LeadsTo homeTree (c!"/home/me/src") s ↔ LeadsTo homeTree (c!"/data/me/src") s) := by
  have h1 : (classInitialize (rpOf homeTree) 9 homeWorld).map (fun w => (checkTranslationPath w (c!"/private/tmp/x"), checkTranslationPath w (c!"/data/me/a"),
      checkTranslationPath w (c!"/data/me/src"))) = some (c!"/tmp/x", c!"/home/me/a", c!"/home/me/src") := by decide +kernel
  cases hw : classInitialize (rpOf homeTree) 9 homeWorld with
  | none => rw [hw] at h1; cases h1
  | some w =>
    rw [hw] at h1
    have h2 := Option.some.inj h1
    refine ⟨w, .start hw, congrArg (·.1) h2, congrArg (·.2.1) h2, fun s => ?_⟩
    have := C228_partial homeTree _ homeWorld w homeTree_noBack (rpOf_sound _) (isDirOf_sound _ _ rfl)
      (by intro pwd h; have : c!"/home/me/src" = pwd := Option.some.inj h; subst this; exact ⟨by decide, by decide⟩) (.start hw) (c!"/data/me/src") s
    rw [show checkTranslationPath w (c!"/data/me/src") = c!"/home/me/src" from congrArg (·.2.2) h2] at this
    exact this

/-! ### C229: canonical, idempotent -/

/-- /home/me, with PWD=/home/./me. -/
def dotTree : Tree := fun s => if s = [c!"home"] ∨ s = [c!"me", c!"home"] then some .dir else none
def dotWorld : World := { env := fun k => if k = c!"PWD" then some (c!"/home/./me") else none, cwd := some (c!"/home/me"), isDir := isDirOf dotTree }

theorem dot_check : (classInitialize (rpOf dotTree) 9 dotWorld).map (fun w => (checkTranslationPath w (c!"/home/me"), checkTranslationPath w (c!"/home/./me"))) =
    some (c!"/home/./me", c!"/home/././me") := by decide +kernel

/-- C229 is false of the code: with PWD=/home/./me the path /home/me becomes /home/./me, and that becomes /home/././me. -/
theorem C229_refuted : ¬ C229_statement := by
  intro h
  cases hw : classInitialize (rpOf dotTree) 9 dotWorld with
  | none => have := dot_check; rw [hw] at this; cases this
  | some w =>
    have h1 := dot_check
    rw [hw] at h1
    have h1 := Option.some.inj h1
    have h2 := (h dotTree _ 9 dotWorld w (rpOf_sound _) (isDirOf_sound _ _ rfl) hw (c!"/home/me") ⟨c!"/", [c!"home", c!"me"], .inl rfl, ?_, by decide⟩).2
    · rw [show checkTranslationPath w (c!"/home/me") = c!"/home/./me" from congrArg (·.1) h1,
        show checkTranslationPath w (c!"/home/./me") = c!"/home/././me" from congrArg (·.2) h1] at h2
      exact absurd h2 (by decide)
    · intro n hn
      rcases List.mem_cons.1 hn with rfl | hn
      · exact ⟨by decide, by decide, by decide, by decide⟩
      · rcases List.mem_cons.1 hn with rfl | hn
        · exact ⟨by decide, by decide, by decide, by decide⟩
        · cases hn

/-- A canonical path of something other than the root, with a slash. -/
def Below (k : Str) (root : Str) (ks : List Str) : Prop :=
  (root = c!"/" ∨ root = c!"//") ∧ ks ≠ [] ∧ (∀ n ∈ ks, Plain n) ∧ k = root ++ slashJoin ks ++ ['/']

/-- All translations are between canonical paths, and nothing is translated into something that is, contains or is contained in a path that is translated. -/
structure Tidy (m : List (Str × Str)) : Prop where
  from_ : ∀ e ∈ m, ∃ root ks, Below e.1 root ks
  to_ : ∀ e ∈ m, ∃ root ks, Below e.2 root ks
  apart : ∀ e ∈ m, ∀ f ∈ m, startsWith e.2 f.1 = false ∧ startsWith f.1 e.2 = false

theorem plain_noSlash {x : Str} (h : Plain x) : '/' ∉ x := fun hm => absurd (h.noSlash _ hm) (by decide)

theorem names_below {k root : Str} {ks : List Str} (h : Below k root ks) (r : Str) :
    names (k ++ r) = (if root = c!"/" then [[]] else [[], []]) ++ ks ++ names r := by
  obtain ⟨hr, hne, hp, rfl⟩ := h
  have e : root ++ slashJoin ks ++ ['/'] ++ r = root ++ (slashJoin ks ++ '/' :: r) := by simp
  rw [e]
  have hj : names (slashJoin ks ++ '/' :: r) = ks ++ names r := by
    rw [names_slash, names_join ks hne (fun x hx => plain_noSlash (hp x hx))]
  rcases hr with rfl | rfl
  · rw [if_pos rfl]
    show names ('/' :: (slashJoin ks ++ '/' :: r)) = _
    rw [names, if_pos rfl, hj]
    rfl
  · rw [if_neg (by decide)]
    show names ('/' :: '/' :: (slashJoin ks ++ '/' :: r)) = _
    rw [names, if_pos rfl, names, if_pos rfl, hj]
    rfl

theorem names_inj : ∀ {a b : Str}, names a = names b → a = b
  | [], [], _ => rfl
  | [], c :: b, h => by
    unfold names at h
    split at h
    · exact absurd (List.cons.inj h).2.symm (names_ne b)
    · split at h
      · cases h
      · cases h
  | c :: a, [], h => by
    have h := h.symm
    unfold names at h
    split at h
    · exact absurd (List.cons.inj h).2.symm (names_ne a)
    · split at h
      · cases h
      · cases h
  | c :: a, d :: b, h => by
    cases h1 : names a with
    | nil => exact absurd h1 (names_ne a)
    | cons x l =>
      cases h2 : names b with
      | nil => exact absurd h2 (names_ne b)
      | cons y m =>
        have ih : x = y → l = m → a = b := fun e e' => names_inj (by rw [h1, h2, e, e'])
        rw [names, names, h1, h2] at h
        by_cases hc : c = '/' <;> by_cases hd : d = '/'
        · rw [if_pos hc, if_pos hd] at h
          simp only [List.cons.injEq, true_and] at h
          rw [hc, hd, ih h.1 h.2]
        · rw [if_pos hc, if_neg hd] at h
          simp at h
        · rw [if_neg hc, if_pos hd] at h
          simp at h
        · rw [if_neg hc, if_neg hd] at h
          simp only [List.cons.injEq] at h
          rw [h.1.1, ih h.1.2 h.2]

/-- A canonical path with a slash that starts with such a key. -/
theorem below_cut {q r k root root' : Str} {ns ks : List Str} (hq : Below q root ns) (hk : Below k root' ks) (h : q = k ++ r) :
    root = root' ∧ ∃ ms, ns = ks ++ ms ∧ (∀ n ∈ ms, Plain n) ∧ r = (if ms = [] then [] else slashJoin ms ++ ['/']) := by
  have h1 := names_below hq []
  rw [List.append_nil, h, names_below hk r] at h1
  have hks : ∃ x l, ks = x :: l ∧ x ≠ [] := by
    cases hkk : ks with
    | nil => exact absurd hkk hk.2.1
    | cons x l => exact ⟨x, l, rfl, (hk.2.2.1 x (by rw [hkk]; simp)).ne⟩
  have hns : ∃ x l, ns = x :: l ∧ x ≠ [] := by
    cases hkk : ns with
    | nil => exact absurd hkk hq.2.1
    | cons x l => exact ⟨x, l, rfl, (hq.2.2.1 x (by rw [hkk]; simp)).ne⟩
  obtain ⟨x, l, ex, hx⟩ := hks
  obtain ⟨y, m, ey, hy⟩ := hns
  have hroot : root = root' := by
    rcases hq.1 with e | e <;> rcases hk.1 with e' | e'
    · rw [e, e']
    · rw [e, e', ex, ey, if_neg (by decide), if_pos rfl] at h1
      simp only [List.cons_append, List.nil_append, List.cons.injEq] at h1
      exact absurd h1.2.1.symm hy
    · rw [e, e', ex, ey, if_pos rfl, if_neg (by decide)] at h1
      simp only [List.cons_append, List.nil_append, List.cons.injEq] at h1
      exact absurd h1.2.1 hx
    · rw [e, e']
  subst hroot
  refine ⟨rfl, ?_⟩
  rw [List.append_assoc, List.append_assoc] at h1
  have h2 : ks ++ names r = ns ++ [[]] := List.append_cancel_left h1
  have hl : ∃ ms, ns = ks ++ ms ∧ names r = ms ++ [[]] := by
    rcases List.append_eq_append_iff.1 h2 with ⟨a, h3, h4⟩ | ⟨a, h3, h4⟩
    · exact ⟨a, h3, h4⟩
    · have hne := names_ne r
      cases a with
      | nil => exact ⟨[], by simpa using h3.symm, by simpa using h4.symm⟩
      | cons z a =>
        rw [List.cons_append] at h4
        have := (List.cons.inj h4).2
        have h5 := List.append_eq_nil_iff.1 this.symm
        exact absurd h5.2 hne
  obtain ⟨ms, h3, h4⟩ := hl
  have hms : ∀ n ∈ ms, Plain n := fun n hn => hq.2.2.1 n (by rw [h3]; simp [hn])
  refine ⟨ms, h3, hms, names_inj ?_⟩
  rw [h4]
  split
  · rename_i e; rw [e]; rfl
  · rename_i e
    rw [names_slash, names_join ms e (fun x hx => plain_noSlash (hms x hx))]
    rfl

theorem slashJoin_append {a b : List Str} (ha : a ≠ []) (hb : b ≠ []) : slashJoin (a ++ b) = slashJoin a ++ '/' :: slashJoin b := by
  cases a with
  | nil => exact absurd rfl ha
  | cons x a =>
    cases b with
    | nil => exact absurd rfl hb
    | cons y b => simp [slashJoin]

/-- One translation of a canonical path is canonical. -/
theorem below_step {q k v root rk rv : Str} {ns ks vs : List Str} (hq : Below q root ns) (hk : Below k rk ks) (hv : Below v rv vs)
    (h : startsWith q k = true) : ∃ r n, Below (v ++ q.drop k.length) r n := by
  obtain ⟨_, ms, h1, h2, h3⟩ := below_cut hq hk (startsWith_split h)
  rw [h3]
  split
  · exact ⟨rv, vs, by rw [List.append_nil]; exact hv⟩
  · rename_i hm
    refine ⟨rv, vs ++ ms, hv.1, by simp [hm], fun n hn => ?_, ?_⟩
    · rcases List.mem_append.1 hn with hn | hn
      · exact hv.2.2.1 n hn
      · exact h2 n hn
    · rw [slashJoin_append hv.2.1 hm, hv.2.2.2]
      simp

theorem starts_append {a b k : Str} (h : startsWith (a ++ b) k = true) : startsWith a k = true ∨ startsWith k a = true := by
  have h1 := startsWith_split h
  generalize (a ++ b).drop k.length = r at h1
  rcases List.append_eq_append_iff.1 h1 with ⟨x, h2, h3⟩ | ⟨x, h2, h3⟩
  · right; unfold startsWith; rw [h2]; simp
  · left; unfold startsWith; rw [h2]; simp

/-- A path that no entry applies to stays. -/
theorem fold_none : ∀ (m : List (Str × Str)) (q : Str), (∀ e ∈ m, startsWith q e.1 = false) →
    m.foldl (fun q e => if startsWith q e.1 then e.2 ++ q.drop e.1.length else q) q = q
  | [], _, _ => rfl
  | e :: m, q, h => by
    rw [List.foldl_cons, if_neg (by rw [h e (by simp)]; simp)]
    exact fold_none m q (fun e he => h e (by simp [he]))

/-- With a tidy table at most one entry applies, and nothing applies to the result. -/
theorem fold_tidy {M : List (Str × Str)} (hM : Tidy M) : ∀ (m : List (Str × Str)), (∀ e ∈ m, e ∈ M) → ∀ (q root : Str) (ns : List Str), Below q root ns →
    (∀ e ∈ M, e ∉ m → startsWith q e.1 = false) →
    (∃ r n, Below (m.foldl (fun q e => if startsWith q e.1 then e.2 ++ q.drop e.1.length else q) q) r n) ∧
    ∀ e ∈ M, startsWith (m.foldl (fun q e => if startsWith q e.1 then e.2 ++ q.drop e.1.length else q) q) e.1 = false
  | [], _, q, root, ns, hq, hn => ⟨⟨root, ns, hq⟩, fun e he => hn e he (by simp)⟩
  | e :: m, hm, q, root, ns, hq, hn => by
    rw [List.foldl_cons]
    by_cases hs : startsWith q e.1 = true
    · rw [if_pos hs]
      obtain ⟨rk, ks, hk⟩ := hM.from_ e (hm e (by simp))
      obtain ⟨rv, vs, hv⟩ := hM.to_ e (hm e (by simp))
      obtain ⟨r, n, hb⟩ := below_step hq hk hv hs
      have hno : ∀ f ∈ M, startsWith (e.2 ++ q.drop e.1.length) f.1 = false := by
        intro f hf
        cases hc : startsWith (e.2 ++ q.drop e.1.length) f.1 with
        | false => rfl
        | true =>
          have ha := hM.apart e (hm e (by simp)) f hf
          rcases starts_append hc with h | h
          · rw [ha.1] at h; cases h
          · rw [ha.2] at h; cases h
      rw [fold_none m _ (fun f hf => hno f (hm f (by simp [hf])))]
      exact ⟨⟨r, n, hb⟩, hno⟩
    · rw [if_neg hs]
      refine fold_tidy hM m (fun f hf => hm f (by simp [hf])) q root ns hq (fun f hf hfm => ?_)
      by_cases he : f = e
      · subst he; simpa using hs
      · exact hn f hf (by simp [he, hfm])

theorem below_canonical {q root : Str} {ns : List Str} (h : Below q root ns) : Canonical q.dropLast ∧ 2 ≤ q.dropLast.length ∧ q.dropLast ++ ['/'] = q := by
  obtain ⟨hr, hne, hp, rfl⟩ := h
  rw [List.dropLast_concat]
  refine ⟨⟨root, ns, hr, hp, rfl⟩, ?_, rfl⟩
  cases ns with
  | nil => exact absurd rfl hne
  | cons x l =>
    have hx := (hp x (by simp)).ne
    cases x with
    | nil => exact absurd rfl hx
    | cons c x => rcases hr with rfl | rfl <;> simp [slashJoin] <;> omega

/-- What holds of C229: a tidy table.  Missing: tables whose paths are not canonical or nested in each other. -/
theorem C229_partial {w : World} (ht : Tidy w.translation) {p : Str} (hp : Canonical p) :
    Canonical (checkTranslationPath w p) ∧ checkTranslationPath w (checkTranslationPath w p) = checkTranslationPath w p := by
  obtain ⟨root, ns, hr, hn, rfl⟩ := id hp
  by_cases hne : ns = []
  · subst hne
    have h0 : checkTranslationPath w (root ++ slashJoin []) = root ++ slashJoin [] := by
      unfold checkTranslationPath
      rcases hr with rfl | rfl
      · rfl
      · rw [if_neg (by decide)]
        have hnone : ∀ e ∈ w.translation, startsWith ((c!"//") ++ slashJoin [] ++ ['/']) e.1 = false := by
          intro e he
          obtain ⟨r, ks, hk⟩ := ht.from_ e he
          cases hc : startsWith ((c!"//") ++ slashJoin [] ++ ['/']) e.1 with
          | false => rfl
          | true =>
            exfalso
            have h1 := congrArg names (startsWith_split hc)
            rw [names_below hk] at h1
            have h2 : names ((c!"//") ++ slashJoin [] ++ ['/']) = [[], [], [], []] := by decide +kernel
            rw [h2] at h1
            obtain ⟨x, l, ex, hx⟩ : ∃ x l, ks = x :: l ∧ x ≠ [] := by
              cases hkk : ks with
              | nil => exact absurd hkk hk.2.1
              | cons x l => exact ⟨x, l, rfl, (hk.2.2.1 x (by rw [hkk]; simp)).ne⟩
            rw [ex] at h1
            split at h1
            · simp only [List.cons_append, List.nil_append, List.cons.injEq] at h1
              exact hx h1.2.1.symm
            · simp only [List.cons_append, List.nil_append, List.cons.injEq] at h1
              exact hx h1.2.2.1.symm
        rw [fold_none _ _ hnone, List.dropLast_concat]
    rw [h0, h0]
    exact ⟨hp, rfl⟩
  · have hb : Below (root ++ slashJoin ns ++ ['/']) root ns := ⟨hr, hne, hn, rfl⟩
    obtain ⟨⟨r, n, h1⟩, h2⟩ := fold_tidy ht w.translation (fun _ h => h) _ root ns hb (fun e he hx => absurd he hx)
    obtain ⟨h3, h4, h5⟩ := below_canonical h1
    have hl : ¬ (root ++ slashJoin ns).length < 2 := by
      have := (below_canonical hb).2.1
      rw [List.dropLast_concat] at this
      omega
    have he : checkTranslationPath w (root ++ slashJoin ns) =
        (w.translation.foldl (fun q e => if startsWith q e.1 then e.2 ++ q.drop e.1.length else q) (root ++ slashJoin ns ++ ['/'])).dropLast := by
      unfold checkTranslationPath
      rw [if_neg hl]
    rw [he]
    refine ⟨h3, ?_⟩
    conv => lhs; unfold checkTranslationPath
    rw [if_neg (by omega), h5, fold_none _ _ h2]

/-- The same for CollapseFullPath, as C75: no drive letters, an absolute base. -/
theorem C229_collapse_partial {w : World} (ht : Tidy w.translation) {p b q : Str} {n : Nat}
    (hb : b.head? = some '/') (hp : NoDrive p) (hh : ∀ v, (w.env (c!"HOME") = some v ∨ ∃ u, w.pwdir u = some v) → NoDrive v)
    (h : collapseFullPathF w n p (some b) = some q) :
    Canonical q ∧ ∀ (m : Nat) (base : Option Str), collapseFullPathF w (m + 1) q base = some q := by
  have hsplit : ∀ n p, splitPathF { w with translation := [] } n p = splitPathF w n p := by
    intro n
    induction n with
    | zero => intro p; rfl
    | succ n ih => intro p; unfold splitPathF; simp only [ih]; rfl
  have hid : ∀ p, checkTranslationPath { w with translation := [] } p = p := by
    intro p
    unfold checkTranslationPath
    split
    · rfl
    · simp
  obtain ⟨q0, h0, hq⟩ : ∃ q0, collapseFullPathF { w with translation := [] } n p (some b) = some q0 ∧ q = checkTranslationPath w q0 := by
    unfold collapseFullPathF at h ⊢
    simp only [hsplit, hid]
    split at h
    · cases h
    · rename_i comps hc
      cases comps with
      | nil => cases h
      | cons c0 l =>
        simp only at h ⊢
        split at h
        · cases h
        · rename_i out ho
          cases h
          exact ⟨_, rfl, rfl⟩
  have hcan := (C75_collapse_canonical_partial (w := { w with translation := [] }) rfl hb hp hh h0).1
  obtain ⟨h1, h2⟩ := C229_partial ht hcan
  subst hq
  refine ⟨h1, fun m base => ?_⟩
  rw [collapse_check h1, h2]

/-- A concrete case for C229: the table of the example above. -/
example : Tidy [(c!"/data/", c!"/home/"), (c!"/private/tmp/", c!"/tmp/")] := by
  have hp : ∀ x : Str, x ∈ [c!"data", c!"home", c!"private", c!"tmp"] → Plain x := by
    intro x hx
    simp only [List.mem_cons, List.not_mem_nil, or_false] at hx
    rcases hx with rfl | rfl | rfl | rfl <;> exact ⟨by decide, by decide, by decide, by decide⟩
  refine ⟨?_, ?_, ?_⟩
  · intro e he
    simp only [List.mem_cons, List.not_mem_nil, or_false] at he
    rcases he with rfl | rfl
    · exact ⟨c!"/", [c!"data"], .inl rfl, by simp, fun n hn => hp n (by simp at hn; simp [hn]), by decide⟩
    · exact ⟨c!"/", [c!"private", c!"tmp"], .inl rfl, by simp, fun n hn => hp n (by simp at hn; rcases hn with rfl | rfl <;> simp), by decide⟩
  · intro e he
    simp only [List.mem_cons, List.not_mem_nil, or_false] at he
    rcases he with rfl | rfl
    · exact ⟨c!"/", [c!"home"], .inl rfl, by simp, fun n hn => hp n (by simp at hn; simp [hn]), by decide⟩
    · exact ⟨c!"/", [c!"tmp"], .inl rfl, by simp, fun n hn => hp n (by simp at hn; simp [hn]), by decide⟩
  · intro e he f hf
    simp only [List.mem_cons, List.not_mem_nil, or_false] at he hf
    rcases he with rfl | rfl <;> rcases hf with rfl | rfl <;> decide

example : (classInitialize (rpOf homeTree) 9 homeWorld).map World.translation = some [(c!"/data/", c!"/home/"), (c!"/private/tmp/", c!"/tmp/")] := by
  decide +kernel

/-! ### C230: the end of the loop -/

/-- "/:" is a link to the root. -/
def colonTree : Tree := fun s => if s = [c!":"] then some (.link (c!"/")) else none
def colonWorld : World := { env := fun k => if k = c!"PWD" then some (c!"/:/") else none, cwd := some (c!"/"), isDir := isDirOf colonTree }

theorem colon_loop (w : World) : ∀ (n : Nat) (best : Str × Str), logical (rpOf colonTree) w n (c!"/") (c!"/:/") best = none
  | 0, _ => rfl
  | n + 1, best => by
    have h1 : getFilenamePath w (c!"/") = c!"/" := rfl
    have h2 : getFilenamePath w (c!"/:/") = c!"/:/" := rfl
    have h3 : (c!"/") = realpathS (rpOf colonTree) (c!"/:/") ∧ (c!"/") ≠ (c!"/:/") := by decide +kernel
    unfold logical
    rw [if_pos h3, h1, h2]
    exact colon_loop w n _

/-- C230 is false of the code: with PWD=/:/ in the root directory, where /: is a link to the root, the loop does not end. -/
theorem C230_refuted : ¬ C230_statement := by
  intro h
  obtain ⟨n, w', h⟩ := h colonTree (rpOf colonTree) colonWorld (rpOf_sound _)
  unfold classInitialize at h
  obtain ⟨_, e2, e3, _⟩ := add_same { colonWorld with translation := [] } (realpathS (rpOf colonTree) (collapseFullPath { colonWorld with translation := [] } (c!"/tmp/"))) (c!"/tmp/")
  change (addKeepPath (rpOf colonTree) { colonWorld with translation := [] } (c!"/tmp/")).env = colonWorld.env at e2
  change (addKeepPath (rpOf colonTree) { colonWorld with translation := [] } (c!"/tmp/")).cwd = colonWorld.cwd at e3
  generalize addKeepPath (rpOf colonTree) { colonWorld with translation := [] } (c!"/tmp/") = w1 at *
  have h1 : w1.env (c!"PWD") = some (c!"/:/") := by rw [e2]; rfl
  have h2 : w1.cwd = some (c!"/") := by rw [e3]; rfl
  simp only [h1, h2, colon_loop] at h
  cases h

theorem length_replaceDouble (p : Str) : (replaceDouble p).length ≤ p.length := by
  fun_induction replaceDouble p <;> simp_all <;> omega

theorem length_convert (w : World) {p : Str} (hb : '\\' ∉ p) (ht : p.head? ≠ some '~') : (convertToUnixSlashes w p).length ≤ p.length := by
  have key : ∀ q : Str, q.length ≤ p.length → q.head? = p.head? → (dropTrailingSlash (expandTilde w q)).length ≤ p.length := by
    intro q h1 h2
    have e : expandTilde w q = q := by
      cases q with
      | nil => rfl
      | cons a q =>
        have : a ≠ '~' := by rintro rfl; exact ht (by rw [← h2]; rfl)
        unfold expandTilde
        split
        · rename_i h; exact absurd (List.cons.inj h).1 this
        · rfl
    rw [e]
    unfold dropTrailingSlash
    split
    · simp; omega
    · exact h1
  unfold convertToUnixSlashes
  simp only [slashify_eq hb]
  split
  · exact key _ (length_replaceDouble p) (head_replaceDouble p)
  · exact key _ (Nat.le_refl _) rfl

/-- The directory part of a path is shorter, and has no new characters. -/
theorem parent_shorter (w : World) {p : Str} (hs : Simple p) (hc : ':' ∉ p) (h0 : p ≠ []) (h1 : p ≠ ['/']) :
    (getFilenamePath w p).length < p.length := by
  obtain ⟨k1, k2⟩ := convert_chars w hs.1 hs.2
  have k3 := length_convert w hs.1 hs.2
  have hp : 0 < p.length := by cases p with
    | nil => exact absurd rfl h0
    | cons => simp
  unfold getFilenamePath
  split
  · simpa using hp
  · rename_i ret hr
    obtain ⟨u, hu⟩ := beforeLast_prefix hr
    rw [hu] at k1 k2 k3
    simp only [List.length_append, List.length_cons] at k3
    rw [if_neg (by
      rintro ⟨_, h⟩
      exact hc (k1 _ (by simp [List.mem_of_getElem? h])))]
    split
    · rename_i e
      subst e
      simp only [List.length_cons, List.length_nil]
      cases p with
      | nil => exact absurd rfl h0
      | cons a p => cases p with
        | nil => cases k2; exact absurd rfl h1
        | cons => simp
    · omega

theorem parent_colon (w : World) {p : Str} (hs : Simple p) (hc : ':' ∉ p) : ':' ∉ getFilenamePath w p := by
  obtain ⟨k1, _⟩ := convert_chars w hs.1 hs.2
  unfold getFilenamePath
  split
  · simp
  · rename_i ret hr
    obtain ⟨u, hu⟩ := beforeLast_prefix hr
    have hb : ':' ∉ ret := fun hm => hc (k1 _ (by rw [hu]; simp [hm]))
    split
    · simp [hb]
    · split
      · decide
      · exact hb

theorem logical_ends {t : Tree} {rp : Str → Option Str} (hs : Sound t rp) (h0 : rp [] = none) (w : World) :
    ∀ (n : Nat) (cwd pwd : Str) (best : Str × Str), pwd.length < n → Simple pwd → ':' ∉ pwd → ∃ r, logical rp w n cwd pwd best = some r
  | 0, _, _, _, h, _, _ => by omega
  | n + 1, cwd, pwd, best, h, hp, hc => by
    unfold logical
    split
    · rename_i hx
      have h1 : pwd ≠ [] := by
        rintro rfl
        have := hx.1
        unfold realpathS at this
        rw [h0] at this
        exact hx.2 this
      have h2 : pwd ≠ ['/'] := by
        rintro rfl
        have h4 := hx.1
        unfold realpathS at h4
        cases hr : rp ['/'] with
        | none => rw [hr] at h4; exact hx.2 h4
        | some d =>
          obtain ⟨s, rfl, hl⟩ := hs _ _ rfl hr
          have := root_leads hl
          subst this
          rw [hr] at h4
          exact hx.2 h4
      have := parent_shorter w hp hc h1 h2
      exact logical_ends hs h0 w n _ _ _ (by omega) (simple_parent w hp) (parent_colon w hp hc)
    · exact ⟨_, rfl⟩

/-- What holds of C230: PWD has neither a colon nor a backslash and does not start with a tilde.  Missing: other values of PWD. -/
theorem C230_partial (t : Tree) (rp : Str → Option Str) (w : World) (hs : Sound t rp) (h0 : rp [] = none)
    (hp : ∀ pwd, w.env (c!"PWD") = some pwd → Simple pwd ∧ ':' ∉ pwd) : ∃ n w', classInitialize rp n w = some w' := by
  unfold classInitialize
  obtain ⟨_, e2, _, _⟩ := add_same { w with translation := [] } (realpathS rp (collapseFullPath { w with translation := [] } (c!"/tmp/"))) (c!"/tmp/")
  change (addKeepPath rp { w with translation := [] } (c!"/tmp/")).env = w.env at e2
  generalize addKeepPath rp { w with translation := [] } (c!"/tmp/") = w1 at *
  simp only
  cases hpwd : w1.env (c!"PWD") with
  | none => exact ⟨0, w1, rfl⟩
  | some pwd =>
    cases hcwd : w1.cwd with
    | none => exact ⟨0, w1, rfl⟩
    | some cwd =>
      obtain ⟨k1, k2⟩ := hp pwd (by rw [← e2]; exact hpwd)
      obtain ⟨⟨c, p⟩, hr⟩ := logical_ends hs h0 w1 (pwd.length + 1) cwd pwd ([], []) (by omega) k1 k2
      refine ⟨pwd.length + 1, ?_⟩
      simp only [hr]
      exact ⟨_, rfl⟩

/-- A concrete case for C230. -/
example : ∃ n w', classInitialize (rpOf homeTree) n homeWorld = some w' :=
  C230_partial homeTree _ homeWorld (rpOf_sound _) rfl
    (by intro pwd h; have : c!"/home/me/src" = pwd := Option.some.inj h; subst this; exact ⟨⟨by decide, by decide⟩, by decide⟩)

/-! ### No target of a translation has two dots in a row -/

theorem hasDots_spec : ∀ {s : Str}, hasDots s = false → ∀ u v, s ≠ u ++ '.' :: '.' :: v
  | [], _, u, v, e => by cases u <;> cases e
  | c :: s, h, [], v, e => by
    have e' : c :: s = '.' :: '.' :: v := e
    rw [e'] at h
    cases h
  | c :: s, h, d :: u, v, e => by
    have e' := (List.cons.inj e).2
    refine hasDots_spec ?_ u v e'
    unfold hasDots at h
    split at h
    · cases h
    · rename_i e1; cases e1; exact h
    · rename_i e1; cases e1

theorem endSlash_dots {s u v : Str} (h : ∀ u v, s ≠ u ++ '.' :: '.' :: v) : endSlash s ≠ u ++ '.' :: '.' :: v := by
  unfold endSlash
  split
  · intro e
    cases hv : v.reverse with
    | nil =>
      have : v = [] := by simpa using hv
      subst this
      have h1 := congrArg List.getLast? e
      simp at h1
    | cons c x =>
      have hv' : v = x.reverse ++ [c] := by
        have := congrArg List.reverse hv
        simpa using this
      rw [hv'] at e
      have e2 : s ++ ['/'] = (u ++ '.' :: '.' :: x.reverse) ++ [c] := by rw [e]; simp
      exact h u x.reverse (List.append_inj_left' e2 rfl)
  · exact h u v

theorem add_dots {w : World} (a b : Str) (h : ∀ e ∈ w.translation, ∀ u v, e.2 ≠ u ++ '.' :: '.' :: v) :
    ∀ e ∈ (addTranslationPath w a b).translation, ∀ u v, e.2 ≠ u ++ '.' :: '.' :: v := by
  unfold addTranslationPath
  simp only
  split
  · rename_i hc
    intro e he u v
    rcases mem_insert he with rfl | he
    · exact endSlash_dots (hasDots_spec hc.2.2.1)
    · exact h e he u v
  · exact h

/-- Whatever realpath, the environment and the working directory say: no target of a translation has two dots in a row, so a translation never
    brings ".." into a path; also after later calls of AddTranslationPath (`add_dots`). -/
theorem C229_no_dots (rp : Str → Option Str) (n : Nat) (w w' : World) (h : classInitialize rp n w = some w') :
    ∀ e ∈ w'.translation, ∀ u v, e.2 ≠ u ++ '.' :: '.' :: v := by
  unfold classInitialize at h
  have h0 : ∀ e ∈ (addKeepPath rp { w with translation := [] } (c!"/tmp/")).translation, ∀ u v, e.2 ≠ u ++ '.' :: '.' :: v :=
    add_dots _ _ (by simp)
  generalize addKeepPath rp { w with translation := [] } (c!"/tmp/") = w1 at *
  simp only at h
  split at h
  · split at h
    · cases h
    · cases h
      split
      · exact add_dots _ _ h0
      · exact h0
  · cases h; exact h0

/-- A concrete case: PWD=/a/../li is not used. -/
example : ((classInitialize (rpOf (fun s => if s = [c!"a"] ∨ s = [c!"real"] then some .dir else if s = [c!"li"] then some (.link (c!"/real")) else none)) 9
    { env := fun k => if k = c!"PWD" then some (c!"/a/../li") else none, cwd := some (c!"/real"),
      isDir := isDirOf (fun s => if s = [c!"a"] ∨ s = [c!"real"] then some .dir else none) }).map (·.translation)) = some [] ∧
    ((classInitialize (rpOf (fun s => if s = [c!"a"] ∨ s = [c!"real"] then some .dir else if s = [c!"li"] then some (.link (c!"/real")) else none)) 9
    { env := fun k => if k = c!"PWD" then some (c!"/li") else none, cwd := some (c!"/real"),
      isDir := isDirOf (fun s => if s = [c!"a"] ∨ s = [c!"real"] then some .dir else none) }).map (·.translation)) = some [(c!"/real/", c!"/li/")] := by
  decide +kernel

end Vital.Sys.Real
