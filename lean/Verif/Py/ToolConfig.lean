import Verif.Py.ToolProps
/-
  Proof of C226: the configuration of the tool, and Python's absolute paths.
-/
namespace Vital.Py.Tool
open Vital Vital.Config Vital.CApi

/-! ### Paths -/

/-- A component that normpath keeps. -/
def Comp (a : Str) : Prop := a ≠ [] ∧ '/' ∉ a ∧ a ≠ ['.'] ∧ a ≠ ['.', '.']

theorem split_comp : ∀ {a : Str} (r : Str), '/' ∉ a → splitSlash (a ++ '/' :: r) = a :: splitSlash r
  | [], r, _ => by simp [splitSlash]
  | c :: a, r, h => by
    simp only [List.mem_cons, not_or] at h
    rw [List.cons_append, splitSlash, if_neg (Ne.symm h.1), split_comp r h.2]

theorem split_one : ∀ {a : Str}, '/' ∉ a → splitSlash a = [a]
  | [], _ => rfl
  | c :: a, h => by
    simp only [List.mem_cons, not_or] at h
    rw [splitSlash, if_neg (Ne.symm h.1), split_one h.2]

theorem split_join : ∀ (l : List Str), l ≠ [] → (∀ a ∈ l, '/' ∉ a) → splitSlash (joinSlash l) = l
  | [], h, _ => absurd rfl h
  | [a], _, h => split_one (h a (by simp))
  | a :: b :: l, _, h => by
    rw [joinSlash, split_comp _ (h a (by simp)), split_join (b :: l) (by simp) fun x hx => h x (by simp [hx])]

theorem split_no : ∀ (p : Str), ∀ a ∈ splitSlash p, '/' ∉ a
  | [], a, h => by simp [splitSlash] at h; subst h; simp
  | c :: p, a, h => by
    have ih := split_no p
    unfold splitSlash at h
    split at h
    · simp only [List.mem_cons] at h
      rcases h with rfl | h
      · simp
      · exact ih a h
    · rename_i hc
      cases hs : splitSlash p with
      | nil => rw [hs] at h; simp at h; subst h; simp [Ne.symm hc]
      | cons x l =>
        rw [hs] at h ih
        simp only [List.mem_cons] at h
        rcases h with rfl | h
        · have := ih x (by simp)
          simp [this, Ne.symm hc]
        · exact ih a (by simp [h])

theorem normLoop_comps (init : Bool) : ∀ (l acc : List Str), (∀ a ∈ l, Comp a) → normLoop init l acc = acc.reverse ++ l
  | [], acc, _ => by simp [normLoop]
  | c :: l, acc, h => by
    obtain ⟨h1, _, h3, h4⟩ := h c (by simp)
    rw [normLoop, if_neg (by simp [h1, h3]), if_pos (.inl h4), normLoop_comps init l _ fun a ha => h a (by simp [ha])]
    simp

theorem normLoop_good : ∀ (l acc : List Str), (∀ a ∈ l, '/' ∉ a) → (∀ a ∈ acc, Comp a) → ∀ a ∈ normLoop true l acc, Comp a
  | [], acc, _, ha => by intro a h; exact ha a (by simpa [normLoop] using h)
  | c :: l, acc, h, ha => by
    have hl : ∀ a ∈ l, '/' ∉ a := fun a ha => h a (by simp [ha])
    unfold normLoop
    split
    · exact normLoop_good l acc hl ha
    · rename_i h1
      simp only [not_or] at h1
      split
      · rename_i h2
        refine normLoop_good l (c :: acc) hl fun a hm => ?_
        simp only [List.mem_cons] at hm
        rcases hm with rfl | hm
        · refine ⟨h1.1, h a (by simp), h1.2, ?_⟩
          rcases h2 with h2 | h2 | h2
          · exact h2
          · cases h2.1
          · cases acc with
            | nil => cases h2
            | cons x acc =>
              simp at h2
              exact absurd h2 (ha x (by simp)).2.2.2
        · exact ha a hm
      · exact normLoop_good l acc.tail hl fun a hm => ha a (List.mem_of_mem_tail hm)

theorem normLoop_skip (init : Bool) : ∀ (n : Nat) (p : Str) (acc : List Str), normLoop init (splitSlash (List.replicate n '/' ++ p)) acc = normLoop init (splitSlash p) acc
  | 0, p, acc => rfl
  | n + 1, p, acc => by
    rw [List.replicate_succ, List.cons_append, splitSlash, if_pos rfl, normLoop, if_pos (.inl rfl), normLoop_skip init n p acc]

theorem normLoop_join (init : Bool) (l : List Str) (h : ∀ a ∈ l, Comp a) : normLoop init (splitSlash (joinSlash l)) [] = l := by
  cases l with
  | nil => rfl
  | cons a l =>
    rw [split_join _ (by simp) (fun x hx => (h x hx).2.1), normLoop_comps init _ _ h]
    rfl

theorem join_head {a : Str} {l : List Str} (h : Comp a) : ∃ x r, joinSlash (a :: l) = x :: r ∧ x ≠ '/' := by
  obtain ⟨h1, h2, _⟩ := h
  obtain ⟨x, a', rfl⟩ := List.exists_cons_of_ne_nil h1
  simp only [List.mem_cons, not_or] at h2
  cases l with
  | nil => exact ⟨x, a', rfl, Ne.symm h2.1⟩
  | cons b l => exact ⟨x, _, rfl, Ne.symm h2.1⟩

theorem slashes_join {n : Nat} (hn : n = 1 ∨ n = 2) {l : List Str} (h : ∀ a ∈ l, Comp a) : slashes (List.replicate n '/' ++ joinSlash l) = n := by
  cases l with
  | nil => rcases hn with rfl | rfl <;> rfl
  | cons a l =>
    obtain ⟨x, r, e, hx⟩ := join_head (l := l) (h a (by simp))
    rw [e]
    rcases hn with rfl | rfl <;> simp [slashes, startsWith, List.replicate_succ, hx]

theorem slashes_abs {p : Str} (h : startsWith p ['/'] = true) : slashes p = 1 ∨ slashes p = 2 := by
  unfold slashes
  rw [if_pos h]
  split
  · exact .inr rfl
  · exact .inl rfl

theorem norm_abs {p : Str} (h : startsWith p ['/'] = true) : ∃ (n : Nat) (l : List Str), (n = 1 ∨ n = 2) ∧ (∀ a ∈ l, Comp a) ∧
    normpath p = List.replicate n '/' ++ joinSlash l := by
  have hs := slashes_abs h
  have hp : p ≠ [] := by rintro rfl; simp [startsWith] at h
  refine ⟨slashes p, normLoop true (splitSlash p) [], hs, normLoop_good _ _ (split_no p) (by simp), ?_⟩
  unfold normpath
  have hz : decide (slashes p ≠ 0) = true := by rcases hs with h | h <;> rw [h] <;> rfl
  rw [if_neg hp, hz]
  dsimp only
  rw [if_neg]
  rcases hs with h | h <;> rw [h] <;> simp [List.replicate_succ]

/-- An absolute path is normal after one round. -/
theorem norm_idem {p : Str} (h : startsWith p ['/'] = true) : startsWith (normpath p) ['/'] = true ∧ normpath (normpath p) = normpath p := by
  obtain ⟨n, l, hn, hl, e⟩ := norm_abs h
  have h1 : startsWith (List.replicate n '/' ++ joinSlash l) ['/'] = true := by
    rcases hn with rfl | rfl <;> simp [startsWith, List.replicate_succ]
  rw [e]
  refine ⟨h1, ?_⟩
  have hne : List.replicate n '/' ++ joinSlash l ≠ [] := by rcases hn with rfl | rfl <;> simp [List.replicate_succ]
  unfold normpath
  rw [if_neg hne]
  dsimp only
  rw [slashes_join hn hl, normLoop_skip, normLoop_join _ _ hl, if_neg hne]

theorem pjoin_abs {a b : Str} (h : startsWith a ['/'] = true) : startsWith (pjoin a b) ['/'] = true := by
  obtain ⟨t, rfl⟩ := (startsWith_iff _ _).1 h
  unfold pjoin
  split
  · assumption
  · split
    · exact (startsWith_iff _ _).2 ⟨t ++ b, by simp⟩
    · exact (startsWith_iff _ _).2 ⟨t ++ '/' :: b, by simp⟩

theorem abs_abs {e : Env} (he : e.Ok) (p : Str) : startsWith (abspath e p) ['/'] = true ∧ abspath e (abspath e p) = abspath e p := by
  have key : ∀ q, startsWith q ['/'] = true → abspath e q = normpath q := by
    intro q hq
    unfold abspath
    have : ¬ q.head? = some '~' := by
      obtain ⟨t, rfl⟩ := (startsWith_iff _ _).1 hq
      simp
    dsimp only
    rw [if_neg this, if_pos hq]
  obtain ⟨q, hq, e1⟩ : ∃ q, startsWith q ['/'] = true ∧ abspath e p = normpath q := by
    unfold abspath
    dsimp only
    split
    · split
      · exact ⟨_, by assumption, rfl⟩
      · exact ⟨_, pjoin_abs he.1, rfl⟩
    · split
      · exact ⟨_, by assumption, rfl⟩
      · exact ⟨_, pjoin_abs he.1, rfl⟩
  rw [e1]
  obtain ⟨h1, h2⟩ := norm_idem hq
  exact ⟨h1, by rw [key _ h1, h2]⟩

/-! ### No NUL characters come in -/

theorem mem_split {c : Char} : ∀ {p a : Str}, a ∈ splitSlash p → c ∈ a → c ∈ p
  | [], a, h, hc => by simp [splitSlash] at h; subst h; cases hc
  | x :: p, a, h, hc => by
    unfold splitSlash at h
    split at h
    · simp only [List.mem_cons] at h
      rcases h with rfl | h
      · cases hc
      · exact List.mem_cons_of_mem _ (mem_split h hc)
    · cases hs : splitSlash p with
      | nil => rw [hs] at h; simp at h; subst h; simp at hc; simp [hc]
      | cons y l =>
        rw [hs] at h
        simp only [List.mem_cons] at h
        rcases h with rfl | h
        · simp only [List.mem_cons] at hc
          rcases hc with rfl | hc
          · simp
          · exact List.mem_cons_of_mem _ (mem_split (a := y) (by rw [hs]; simp) hc)
        · exact List.mem_cons_of_mem _ (mem_split (a := a) (by rw [hs]; simp [h]) hc)

theorem mem_loop {init : Bool} : ∀ {l acc : List Str} {a : Str}, a ∈ normLoop init l acc → a ∈ l ∨ a ∈ acc
  | [], acc, a, h => by simp [normLoop] at h; exact .inr h
  | c :: l, acc, a, h => by
    unfold normLoop at h
    split at h
    · rcases mem_loop h with h | h
      · simp [h]
      · simp [h]
    · split at h
      · rcases mem_loop h with h | h
        · simp [h]
        · simp only [List.mem_cons] at h
          rcases h with h | h <;> simp [h]
      · rcases mem_loop h with h | h
        · simp [h]
        · simp [List.mem_of_mem_tail h]

theorem mem_join {c : Char} : ∀ {l : List Str}, c ∈ joinSlash l → c = '/' ∨ ∃ a ∈ l, c ∈ a
  | [], h => by cases h
  | [a], h => .inr ⟨a, by simp, h⟩
  | a :: b :: l, h => by
    simp only [joinSlash, List.mem_append, List.mem_cons] at h
    rcases h with h | h | h
    · exact .inr ⟨a, by simp, h⟩
    · exact .inl h
    · rcases mem_join (l := b :: l) h with h | ⟨x, hx, h⟩
      · exact .inl h
      · exact .inr ⟨x, List.mem_cons_of_mem _ hx, h⟩

theorem mem_norm {c : Char} {p : Str} (h : c ∈ normpath p) : c = '/' ∨ c = '.' ∨ c ∈ p := by
  unfold normpath at h
  split at h
  · simp at h; simp [h]
  · dsimp only at h
    split at h
    · simp at h; simp [h]
    · simp only [List.mem_append, List.mem_replicate] at h
      rcases h with h | h
      · simp [h.2]
      · rcases mem_join h with h | ⟨a, ha, h⟩
        · simp [h]
        · rcases mem_loop ha with ha | ha
          · simp [mem_split ha h]
          · cases ha

theorem mem_pjoin {c : Char} {a b : Str} (h : c ∈ pjoin a b) : c ∈ a ∨ c = '/' ∨ c ∈ b := by
  unfold pjoin at h
  split at h
  · simp [h]
  · split at h
    · simp only [List.mem_append] at h
      rcases h with h | h <;> simp [h]
    · simp only [List.mem_append, List.mem_cons] at h
      rcases h with h | h | h <;> simp [h]

theorem abs_nul {e : Env} (he : e.Ok) {p : Str} (hp : nul ∉ p) : nul ∉ abspath e p := by
  have key : ∀ q, nul ∉ q → nul ∉ normpath (if startsWith q ['/'] then q else pjoin e.cwd q) := by
    intro q hq hm
    rcases mem_norm hm with h | h | h
    · exact absurd h (by decide)
    · exact absurd h (by decide)
    · split at h
      · exact hq h
      · rcases mem_pjoin h with h | h | h
        · exact he.2.1 h
        · exact absurd h (by decide)
        · exact hq h
  unfold abspath
  dsimp only
  split
  · exact key _ (he.2.2 p hp)
  · exact key _ hp

theorem cstr_nul (s : Str) : nul ∉ cstr s := by
  unfold cstr
  intro h
  have key : ∀ s : Str, nul ∉ s.takeWhile (· != nul) := by
    intro s
    induction s with
    | nil => simp
    | cons a s ih =>
      rw [List.takeWhile_cons]
      split
      · rename_i ha
        intro hm
        rcases List.mem_cons.1 hm with hm | hm
        · rw [← hm] at ha
          exact absurd ha (by decide)
        · exact ih hm
      · simp
  exact key _ h

/-! ### Configurations -/

/-- A path of a tool. -/
def GoodPath (e : Env) (p : Option Str) : Prop := orEmpty p = [] ∨ (abspath e (orEmpty p) = orEmpty p ∧ nul ∉ orEmpty p)

theorem good_get {e : Env} (he : e.Ok) {h : Heap} {b : Nat} {k : Str} {d : Option Str} (hd : GoodPath e d) : GoodPath e (absIf e (getStr h b k d)) := by
  unfold getStr
  cases Config.getValue h b k with
  | ok v =>
    simp only [absIf]
    split
    · exact .inl rfl
    · exact .inr ⟨(abs_abs he _).2, abs_nul he (cstr_nul v)⟩
  | error x =>
    simp only
    cases d with
    | none => exact .inl rfl
    | some p =>
      simp only [absIf]
      split
      · exact .inl rfl
      · rename_i hp
        rcases hd with hd | ⟨h1, h2⟩
        · exact absurd hd hp
        · exact .inr ⟨(abs_abs he _).2, abs_nul he h2⟩

theorem made_good {e : Env} (he : e.Ok) {t : Tool} (h : Made e t) : GoodPath e t.imageList ∧ GoodPath e t.maskList ∧ GoodPath e t.output := by
  induction h with
  | init => exact ⟨.inl rfl, .inl rfl, .inl rfl⟩
  | set h b _ ih => exact ⟨good_get he ih.1, good_get he ih.2.1, good_get he ih.2.2⟩

/-- A block of its own without read-only entries. -/
def Plain (h : Heap) (b : Nat) (f : Str → Option Str) : Prop := ∃ blk, h[b]? = some blk ∧ blk.parent = none ∧ blk.ro = [] ∧ ∀ k, blk.store.find? k = f k

theorem plain_get {h : Heap} {b : Nat} {f : Str → Option Str} (hp : Plain h b f) (k : Str) : findValue h b k = .ok (f k) := by
  obtain ⟨blk, h1, h2, h3, h4⟩ := hp
  have hlen : ∃ n, h.length = n + 1 := ⟨h.length - 1, by have := lt_of_some h1; omega⟩
  obtain ⟨n, hn⟩ := hlen
  have e1 : Config.hasValue h b k = .ok (f k).isSome := by
    unfold Config.hasValue
    rw [hn]
    unfold hasValueF
    rw [h1]
    simp only [h2, OMap.contains, h4]
  have e2 : iGetValue h b k = .ok ((f k).getD []) := by
    unfold iGetValue
    rw [hn]
    unfold iGetValueF
    rw [h1]
    simp only [h2, h4]
    cases f k <;> rfl
  unfold findValue
  rw [e1, e2]
  cases f k <;> rfl

theorem plain_set {h : Heap} {b : Nat} {f : Str → Option Str} (hp : Plain h b f) (k v d : Str) :
    Plain (Config.setValue h b k v d).1 b (fun k' => if k' = k then some (trim v) else f k') := by
  obtain ⟨blk, h1, h2, h3, h4⟩ := hp
  have hlen : ∃ n, h.length = n + 1 := ⟨h.length - 1, by have := lt_of_some h1; omega⟩
  obtain ⟨n, hn⟩ := hlen
  unfold Config.setValue
  rw [hn]
  unfold iSetValueF
  rw [h1]
  simp only [h2, h3, List.contains_nil, Bool.false_eq_true, if_false]
  refine ⟨_, set_same h1, rfl, rfl, fun k' => ?_⟩
  simp only
  rw [OMap.find?_insert, h4]

theorem plain_all {b : Nat} : ∀ (l : List (Str × Str × Str)) {h : Heap} {f : Str → Option Str}, Plain h b f →
    ∃ g, Plain (putAll b l h) b g ∧ ∀ k, (∀ x ∈ l, cstr x.1 ≠ k) → g k = f k
  | [], h, f, hp => ⟨f, hp, fun _ _ => rfl⟩
  | (k, v, d) :: l, h, f, hp => by
    obtain ⟨g, h1, h2⟩ := plain_all l (plain_set hp (cstr k) (cstr v) (cstr d))
    refine ⟨g, h1, fun k' hk => ?_⟩
    rw [h2 k' fun x hx => hk x (by simp [hx]), if_neg (Ne.symm (hk (k, v, d) (by simp)))]

theorem putAll_append (b : Nat) : ∀ (l m : List (Str × Str × Str)) (h : Heap), putAll b (l ++ m) h = putAll b m (putAll b l h)
  | [], _, _ => rfl
  | (k, v, d) :: l, m, h => by rw [List.cons_append, putAll, putAll, putAll_append b l m]

theorem lowerBool_cast (v : Bool) : castBool (trim (cstr (lowerBool v))) = some v := by cases v <;> decide +kernel

/-- The entries of a configuration of the tool. -/
theorem getConfig_spec (descr : Str → Str) (extra : List (Str × Str × Str)) (t : Tool) (h : Heap) (hx : ∀ x ∈ extra, cstr x.1 ∉ toolKeys) :
    ∃ g, Plain (getConfig descr extra t h).1 (getConfig descr extra t h).2 g ∧
      g (c!"image_list_file") = some (trim (cstr (orEmpty t.imageList))) ∧ g (c!"mask_list_file") = some (trim (cstr (orEmpty t.maskList))) ∧
      g (c!"invert_masks") = some (trim (cstr (lowerBool t.invert))) ∧ g (c!"expect_multichannel_masks") = some (trim (cstr (lowerBool t.multi))) ∧
      g (c!"output_tracks_file") = some (trim (cstr (orEmpty t.output))) := by
  have h0 : Plain (emptyConfig h (c!"track_features")).1 h.length (fun _ => none) := by
    refine ⟨mkBlock (c!"track_features") none, ?_, rfl, rfl, fun _ => rfl⟩
    simp [emptyConfig]
  unfold getConfig
  simp only [putAll_append, putAll]
  have h5 := plain_set (plain_set (plain_set (plain_set (plain_set h0 (cstr (c!"image_list_file")) (cstr (orEmpty t.imageList)) (cstr (descr (c!"image_list_file"))))
    (cstr (c!"mask_list_file")) (cstr (orEmpty t.maskList)) (cstr (descr (c!"mask_list_file"))))
    (cstr (c!"invert_masks")) (cstr (lowerBool t.invert)) (cstr (descr (c!"invert_masks"))))
    (cstr (c!"expect_multichannel_masks")) (cstr (lowerBool t.multi)) (cstr (descr (c!"expect_multichannel_masks"))))
    (cstr (c!"output_tracks_file")) (cstr (orEmpty t.output)) (cstr (descr (c!"output_tracks_file")))
  obtain ⟨g, h6, h7⟩ := plain_all extra h5
  have hk : ∀ k ∈ toolKeys, ∀ x ∈ extra, cstr x.1 ≠ k := fun k hk x hx' e => hx x hx' (e ▸ hk)
  refine ⟨g, h6, ?_, ?_, ?_, ?_, ?_⟩
  · rw [h7 _ (hk _ (by decide))]
    rfl
  · rw [h7 _ (hk _ (by decide))]
    rfl
  · rw [h7 _ (hk _ (by decide))]
    rfl
  · rw [h7 _ (hk _ (by decide))]
    rfl
  · rw [h7 _ (hk _ (by decide))]
    rfl

theorem path_back {e : Env} {p : Option Str} (hg : GoodPath e p) (ht : trim (orEmpty p) = orEmpty p) :
    orEmpty (absIf e (some (cstr (trim (cstr (orEmpty p)))))) = orEmpty p := by
  rcases hg with h | ⟨h1, h2⟩
  · rw [h]
    have : cstr (trim (cstr [])) = [] := rfl
    rw [this]
    rfl
  · rw [cstr_self h2, ht, cstr_self h2]
    simp only [absIf]
    split
    · rename_i h; rw [h]; rfl
    · exact h1

/-- What holds of C226: tools whose paths do not start or end with white space.  Missing: paths that do, which a configuration cannot hold. -/
theorem C226_partial (e : Env) (descr : Str → Str) (extra : List (Str × Str × Str)) (h : Heap) (t t' : Tool) (he : e.Ok) (hm : Made e t)
    (hx : ∀ x ∈ extra, cstr x.1 ∉ toolKeys) (h1 : Trimmed (orEmpty t.imageList)) (h2 : Trimmed (orEmpty t.maskList)) (h3 : Trimmed (orEmpty t.output)) :
    settings (setConfig e t' (getConfig descr extra t h).1 (getConfig descr extra t h).2) = settings t := by
  obtain ⟨g, hp, g1, g2, g3, g4, g5⟩ := getConfig_spec descr extra t h hx
  obtain ⟨m1, m2, m3⟩ := made_good he hm
  have gs : ∀ k v d, g k = some v → getStr (getConfig descr extra t h).1 (getConfig descr extra t h).2 k d = some (cstr v) := by
    intro k v d hk
    unfold getStr Config.getValue getValueAs
    rw [plain_get hp, hk]
    rfl
  have gb : ∀ k v d, g k = some (trim (cstr (lowerBool v))) → getBool (getConfig descr extra t h).1 (getConfig descr extra t h).2 k d = v := by
    intro k v d hk
    unfold getBool getValueDef getValueAs
    rw [plain_get hp, hk]
    simp only [lowerBool_cast]
  unfold settings setConfig
  simp only [gs _ _ _ g1, gs _ _ _ g2, gs _ _ _ g5, gb _ _ _ g3, gb _ _ _ g4, path_back m1 (trim_eq_self h1), path_back m2 (trim_eq_self h2), path_back m3 (trim_eq_self h3)]

/-- A configuration whose path has a component that ends in a blank. -/
def blankHeap : Heap := [{ parent := none, name := [], store := [(c!"image_list_file", c!"/x /.")], descr := [], ro := [], defs := [] }]

theorem exEnv_ok : exEnv.Ok := ⟨by decide, by decide, fun _ h => h⟩

/-- C226 is false of the code: the value of an entry is trimmed, so that a path that ends in a blank is not kept. -/
theorem C226_refuted : ¬ C226_statement := by
  intro h
  have := h exEnv id [] [] (setConfig exEnv Tool.init blankHeap 0) Tool.init exEnv_ok (.set _ _ .init) (by simp)
  exact absurd this (by decide +kernel)

/-- A concrete case for C226. -/
example : settings (setConfig exEnv Tool.init (getConfig id [(c!"image_reader:type", c!"x", [])] exTool []).1 (getConfig id [(c!"image_reader:type", c!"x", [])] exTool []).2) =
    settings exTool := by
  have ht : setConfig exEnv Tool.init exHeap 0 = exTool := by decide +kernel
  exact C226_partial exEnv id _ [] exTool Tool.init exEnv_ok (ht ▸ .set _ _ .init) (by intro x hx; simp at hx; subst hx; decide)
    ⟨by intro c hc; simp [exTool, orEmpty] at hc; subst hc; decide, by intro c hc; simp [exTool, orEmpty] at hc; subst hc; decide⟩
    ⟨by intro c hc; simp [exTool, orEmpty] at hc, by intro c hc; simp [exTool, orEmpty] at hc⟩
    ⟨by intro c hc; simp [exTool, orEmpty] at hc; subst hc; decide, by intro c hc; simp [exTool, orEmpty] at hc; subst hc; decide⟩

end Vital.Py.Tool
