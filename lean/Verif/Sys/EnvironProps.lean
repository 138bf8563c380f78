import Verif.Sys.Environ
/- Proofs of C231 - C234. -/
namespace Vital.Sys.Envr
open Vital

theorem isEntry_iff {n e : Str} : isEntry n e = true ↔ ∃ v, e = n ++ '=' :: v := by
  unfold isEntry
  rw [List.isPrefixOf_iff_prefix]
  constructor
  · rintro ⟨v, h⟩; exact ⟨v, by rw [← h]; simp⟩
  · rintro ⟨v, h⟩; exact ⟨v, by rw [h]; simp⟩

theorem keyOf_free {s : Str} : '=' ∉ keyOf s := by
  intro h
  unfold keyOf at h
  induction s with
  | nil => simp at h
  | cons c s ih =>
    rw [List.takeWhile_cons] at h
    split at h
    · rename_i hc
      rcases List.mem_cons.1 h with h | h
      · subst h; simp at hc
      · exact ih h
    · simp at h

theorem keyOf_noeq {s : Str} (h : '=' ∉ s) : keyOf s = s := by
  unfold keyOf
  induction s with
  | nil => rfl
  | cons c s ih =>
    rw [List.takeWhile_cons, if_pos, ih (fun hm => h (by simp [hm]))]
    simp only [bne_iff_ne]
    rintro rfl; exact h (by simp)

theorem keyOf_append {n v : Str} (h : '=' ∉ n) : keyOf (n ++ '=' :: v) = n := by
  unfold keyOf
  induction n with
  | nil => rfl
  | cons c s ih =>
    rw [List.cons_append, List.takeWhile_cons, if_pos, ih (fun hm => h (by simp [hm]))]
    simp only [bne_iff_ne]
    rintro rfl; exact h (by simp)

theorem split_eq {s : Str} (h : '=' ∈ s) : s = keyOf s ++ '=' :: s.drop ((keyOf s).length + 1) := by
  induction s with
  | nil => simp at h
  | cons c s ih =>
    by_cases hc : c = '='
    · subst hc; rfl
    · have hk : keyOf (c :: s) = c :: keyOf s := by
        unfold keyOf
        rw [List.takeWhile_cons, if_pos]
        simpa using hc
      have hm : '=' ∈ s := by
        rcases List.mem_cons.1 h with h | h
        · exact absurd h.symm hc
        · exact h
      rw [hk]
      simp only [List.length_cons, List.drop_succ_cons, List.cons_append]
      rw [← ih hm]

theorem speaks_iff {s n : Str} (hn : '=' ∉ n) : SpeaksOf s n ↔ keyOf s = n := by
  constructor
  · rintro (rfl | ⟨v, rfl⟩)
    · exact keyOf_noeq hn
    · exact keyOf_append hn
  · rintro rfl
    by_cases h : '=' ∈ s
    · exact .inr ⟨_, split_eq h⟩
    · exact .inl (keyOf_noeq h).symm

theorem isEntry_key {n e : Str} (hn : '=' ∉ n) (h : isEntry n e = true) : keyOf e = n := by
  obtain ⟨v, rfl⟩ := isEntry_iff.1 h
  exact keyOf_append hn

theorem isEntry_self {s : Str} (h : '=' ∈ s) : isEntry (keyOf s) s = true := isEntry_iff.2 ⟨_, split_eq h⟩

theorem cstr_self {s : Str} (h : nul ∉ s) : cstr s = s := by
  unfold cstr
  induction s with
  | nil => rfl
  | cons c s ih =>
    rw [List.takeWhile_cons, if_pos, ih (fun hm => h (by simp [hm]))]
    simp only [bne_iff_ne]
    rintro rfl; exact h (by simp)

theorem keyOf_sub {s : Str} {c : Char} (h : c ∈ keyOf s) : c ∈ s := (List.takeWhile_sublist _).mem h

/-! ### C231 -/

theorem find_addTo {env : Environ} {n e : Str} (he : isEntry n e = true) : (addTo env n e).find? (isEntry n) = some e := by
  induction env with
  | nil => simp [addTo, he]
  | cons x env ih =>
    unfold addTo
    split
    · simp [he]
    · rename_i h
      rw [List.find?_cons_of_neg h, ih]

theorem find_addTo_other {env : Environ} {n m e : Str} (hn : '=' ∉ n) (hm : '=' ∉ m) (hne : m ≠ n) (he : isEntry n e = true) :
    (addTo env n e).find? (isEntry m) = env.find? (isEntry m) := by
  have key : ∀ {x : Str}, isEntry n x = true → ¬ isEntry m x = true := by
    intro x h1 h2
    exact hne ((isEntry_key hm h2).symm.trans (isEntry_key hn h1))
  induction env with
  | nil => simp [addTo, key he]
  | cons x env ih =>
    unfold addTo
    split
    · rename_i h
      rw [List.find?_cons_of_neg (key he), List.find?_cons_of_neg (key h)]
    · by_cases hx : isEntry m x = true
      · rw [List.find?_cons_of_pos hx, List.find?_cons_of_pos hx]
      · rw [List.find?_cons_of_neg hx, List.find?_cons_of_neg hx, ih]

theorem getenv_unset {env : Environ} {n : Str} (hn : '=' ∉ n) : getenv (unsetenv env n) n = none := by
  unfold getenv unsetenv
  split
  · rfl
  · rename_i h
    rw [if_neg (by rintro (h1 | h1); exact h h1; exact hn h1)]
    have : (env.filter (fun e => !isEntry n e)).find? (isEntry n) = none := by
      rw [List.find?_eq_none]
      intro x hx
      simpa using (List.mem_filter.1 hx).2
    rw [this]; rfl

theorem getenv_unset_other {env : Environ} {n m : Str} (hm : '=' ∉ m) (hne : m ≠ n) : getenv (unsetenv env n) m = getenv env m := by
  unfold unsetenv
  split
  · rfl
  · rename_i hn
    have hn' : '=' ∉ n := fun h => hn (.inr h)
    have key : ∀ {x : Str}, isEntry m x = true → isEntry n x = false := by
      intro x h1
      cases h2 : isEntry n x with
      | false => rfl
      | true => exact absurd ((isEntry_key hm h1).symm.trans (isEntry_key hn' h2)) hne
    unfold getenv
    split
    · rfl
    · congr 1
      induction env with
      | nil => rfl
      | cons x env ih =>
        by_cases hx : isEntry m x = true
        · rw [List.filter_cons_of_pos (by simp [key hx]), List.find?_cons_of_pos hx, List.find?_cons_of_pos hx]
        · rw [List.find?_cons_of_neg hx, ← ih]
          by_cases h2 : isEntry n x = true
          · rw [List.filter_cons_of_neg (by simp [h2])]
          · rw [List.filter_cons_of_pos (by simpa using h2), List.find?_cons_of_neg hx]

theorem unPut_eq {env : Environ} {s : Str} (hs : nul ∉ s) : unPutUnset env s = unsetenv env (keyOf s) := by
  unfold unPutUnset
  rw [cstr_self hs, cstr_self (fun h => hs (keyOf_sub h))]
  split
  · rfl
  · rename_i h; rw [keyOf_noeq h]

theorem step_other {env : Environ} {o : Op} {n : Str} (hn : '=' ∉ n) (hs : nul ∉ o.text) (h : ¬ SpeaksOf o.text n) :
    getenv (step env o) n = getenv env n := by
  have hne : n ≠ keyOf o.text := fun e => h ((speaks_iff hn).2 e.symm)
  cases o with
  | unput s =>
    change nul ∉ s at hs
    change n ≠ keyOf s at hne
    show getenv (unPutUnset env s) n = _
    rw [unPut_eq hs]
    exact getenv_unset_other hn hne
  | put s =>
    change nul ∉ s at hs
    change n ≠ keyOf s at hne
    show getenv (putEnv env s).1 n = _
    unfold putEnv
    split
    · rw [cstr_self (fun h => hs (keyOf_sub h))]
      unfold setenv
      split
      · rfl
      · unfold getenv
        split
        · rfl
        · show Option.map _ ((addTo env (keyOf s) _).find? (isEntry n)) = _
          rw [find_addTo_other keyOf_free hn hne (isEntry_iff.2 ⟨_, rfl⟩)]
    · show getenv (unPutUnset env s) n = _
      rw [unPut_eq hs]
      exact getenv_unset_other hn hne

theorem run_other {ops : List Op} {n : Str} (hn : '=' ∉ n) (hs : ∀ o ∈ ops, nul ∉ o.text) (h : ∀ o ∈ ops, ¬ SpeaksOf o.text n) (env : Environ) :
    getenv (run env ops) n = getenv env n := by
  induction ops generalizing env with
  | nil => rfl
  | cons o ops ih =>
    show getenv (run (step env o) ops) n = _
    rw [ih (fun o ho => hs o (by simp [ho])) (fun o ho => h o (by simp [ho])), step_other hn (hs o (by simp)) (h o (by simp))]

theorem C231_last_call_counts : C231_statement := by
  intro env before after n hn hs ha
  obtain ⟨h0, he, hz⟩ := hn
  have hsa : ∀ o ∈ after, nul ∉ o.text := fun o ho => hs o (by simp [ho])
  have hrun : ∀ o, run env (before ++ o :: after) = run (step (run env before) o) after := by
    intro o; unfold run; rw [List.foldl_append]; rfl
  unfold getEnv
  rw [cstr_self hz]
  refine ⟨run_other he hsa ha env, ?_, ?_⟩
  · intro v hv
    have hp : putEnv (run env before) (n ++ '=' :: v) = (addTo (run env before) n (n ++ '=' :: v), true) := by
      unfold putEnv
      rw [if_pos (by simp), keyOf_append he, cstr_self hz]
      have : (n ++ '=' :: v).drop (n.length + 1) = v := by simp
      rw [this, cstr_self hv]
      unfold setenv
      rw [if_neg (by rintro (h | h); exact h0 h; exact he h)]
    refine ⟨?_, by rw [hp]⟩
    rw [hrun, run_other he hsa ha]
    show getenv (putEnv (run env before) (n ++ '=' :: v)).1 n = some v
    rw [hp]
    unfold getenv
    rw [if_neg h0, find_addTo (isEntry_iff.2 ⟨v, rfl⟩)]
    simp
  · intro o ho
    rw [hrun, run_other he hsa ha]
    rcases ho with rfl | ⟨s, hsp, hsn, rfl⟩
    · show getenv (putEnv (run env before) n).1 n = none
      unfold putEnv
      rw [if_neg he]
      show getenv (unPutUnset (run env before) n) n = none
      rw [unPut_eq hz, keyOf_noeq he]
      exact getenv_unset he
    · show getenv (unPutUnset (run env before) s) n = none
      rw [unPut_eq hsn, (speaks_iff he).1 hsp]
      exact getenv_unset he

/-- GetEnv with a result: a missing variable leaves the result alone. -/
theorem C231_result (env : Environ) (key result : Str) :
    getEnvInto env key result = ((getEnv env key).isSome, (getEnv env key).getD result) := by
  unfold getEnvInto
  cases getEnv env key <;> rfl

/-- What PutEnv and UnPutEnv do with texts that have no name: nothing; only PutEnv says so. -/
theorem C231_no_name (env : Environ) (v : Str) : putEnv env ('=' :: v) = (env, false) ∧ unPutEnv env ('=' :: v) = (env, true) := by
  constructor
  · unfold putEnv
    rw [if_pos (by simp)]
    rfl
  · unfold unPutEnv unPutUnset
    rw [if_pos (by simp)]
    rfl

/-- A concrete case for C231. -/
example : getEnv (run [c!"HOME=/root", c!"A=1", c!"A=2"] [.put (c!"A=3"), .put (c!"AB=x=y"), .unput (c!"HOME=zzz"), .put (c!"A=")]) (c!"A") = some [] ∧
    getEnv (run [c!"HOME=/root", c!"A=1", c!"A=2"] [.put (c!"A=3"), .put (c!"AB=x=y"), .unput (c!"HOME=zzz")]) (c!"AB") = some (c!"x=y") ∧
    getEnv (run [c!"HOME=/root"] [.unput (c!"HOME=zzz")]) (c!"HOME") = none := by decide +kernel

/-! ### C232 -/

theorem strncmp_prefix : ∀ (a e : Str) (n : Nat), e.length ≥ n → (strncmpEq a e n = true ↔ n ≤ a.length ∧ a.take n = e.take n)
  | a, e, 0, _ => by simp [strncmpEq]
  | [], [], n + 1, h => by simp at h
  | [], b :: e, n + 1, _ => by simp [strncmpEq]
  | a :: s, [], n + 1, h => by simp at h
  | a :: s, b :: e, n + 1, h => by
    have ih := strncmp_prefix s e n (by simpa using h)
    simp only [strncmpEq, Bool.and_eq_true, beq_iff_eq, ih, List.length_cons, List.take_succ_cons, List.cons.injEq]
    constructor
    · rintro ⟨h1, h2, h3⟩; exact ⟨by omega, h1, h3⟩
    · rintro ⟨h1, h2, h3⟩; exact ⟨h2, by omega, h3⟩

theorem len_key {s : Str} : (if '=' ∈ s then (keyOf s).length else s.length) = (keyOf s).length := by
  split
  · rfl
  · rename_i h; rw [keyOf_noeq h]

theorem take_key (s : Str) : s.take (keyOf s).length = keyOf s := by
  have : keyOf s <+: s := List.takeWhile_prefix _
  exact (List.prefix_iff_eq_take.1 this).symm

/-- C232 is false of the code: an entry "=x" is removed by the loop over environ only. -/
theorem C232_refuted : ¬ C232_statement := by
  intro h
  have := (h [c!"=x"] (c!"=") (by decide)).2
  exact absurd this (by decide)

/-- What holds of C232: texts with a name and without NUL.  Missing: the others. -/
theorem C232_partial (env : Environ) (s : Str) (hs : nul ∉ s) (h0 : s ≠ []) (h1 : s.head? ≠ some '=') :
    unPutName env s = unPutUnset env s ∧ unPutDirect env s = unPutUnset env s := by
  have hk : keyOf s ≠ [] := by
    cases s with
    | nil => exact absurd rfl h0
    | cons c s =>
      unfold keyOf
      rw [List.takeWhile_cons, if_pos]
      · simp
      · simp only [bne_iff_ne]; rintro rfl; exact h1 rfl
  rw [unPut_eq hs]
  constructor
  · unfold unPutName putenvName
    simp only [len_key]
    rw [take_key, cstr_self (fun h => hs (keyOf_sub h))]
  · have hc : ¬ (keyOf s = [] ∨ '=' ∈ keyOf s) := fun h => h.elim hk keyOf_free
    unfold unPutDirect unsetenv
    simp only [if_neg hc, len_key, cstr_self hs]
    apply List.filter_congr
    intro e _
    congr 1
    have hlen : (keyOf s).length ≤ s.length := (List.takeWhile_sublist _).length_le
    rw [Bool.eq_iff_iff]
    simp only [Bool.and_eq_true, decide_eq_true_eq, beq_iff_eq, isEntry_iff]
    constructor
    · rintro ⟨⟨h2, h3⟩, h4⟩
      have h5 := ((strncmp_prefix s e _ (by omega)).1 h4).2
      rw [take_key] at h5
      refine ⟨e.drop ((keyOf s).length + 1), ?_⟩
      have h6 := List.take_append_drop (keyOf s).length e
      rw [← h5] at h6
      rw [List.getElem?_eq_getElem h2] at h3
      rw [List.drop_eq_getElem_cons h2, Option.some.inj h3] at h6
      exact h6.symm
    · rintro ⟨v, rfl⟩
      refine ⟨⟨by simp, by simp⟩, (strncmp_prefix _ _ _ (by simp)).2 ⟨hlen, ?_⟩⟩
      rw [take_key]; simp

/-- A concrete case for C232. -/
example : nul ∉ (c!"A=1") ∧ (c!"A=1").head? ≠ some '=' ∧ unPutDirect [c!"A=5", c!"AB=1", c!"B=A=1", c!"A=7"] (c!"A=1") = [c!"AB=1", c!"B=A=1"] := by
  decide +kernel

/-! ### C233 -/

theorem lt_tail : ∀ {a b v w : Str}, '=' ∉ a → '=' ∉ b → a ≠ b → ((a ++ '=' :: v) < (b ++ '=' :: w) ↔ a ++ ['='] < b ++ ['='])
  | [], [], _, _, _, _, h => absurd rfl h
  | [], c :: b, v, w, _, hb, _ => by
    have hc : '=' ≠ c := fun e => hb (by rw [e]; simp)
    simp only [List.nil_append, List.cons_append, List.cons_lt_cons_iff, hc, false_and, or_false]
  | c :: a, [], v, w, ha, _, _ => by
    have hc : c ≠ '=' := fun e => ha (by simp [e])
    simp only [List.nil_append, List.cons_append, List.cons_lt_cons_iff, hc, false_and, or_false]
  | c :: a, d :: b, v, w, ha, hb, h => by
    simp only [List.cons_append, List.cons_lt_cons_iff]
    by_cases hc : c = d
    · subst hc
      have ih := lt_tail (a := a) (b := b) (v := v) (w := w) (fun h => ha (by simp [h])) (fun h => hb (by simp [h])) (fun e => h (by rw [e]))
      simp only [ih]
    · simp only [hc, false_and, or_false]

theorem lt_same : ∀ {a b : Str}, a.length = b.length → (a < b ↔ a ++ ['='] < b ++ ['='])
  | [], [], _ => by simp
  | [], _ :: _, h => by simp at h
  | _ :: _, [], h => by simp at h
  | c :: a, d :: b, h => by
    have ih := lt_same (a := a) (b := b) (by simpa using h)
    simp only [List.cons_append, List.cons_lt_cons_iff, ih]

theorem less_key {l r : Str} (hl : '=' ∈ l) (hr : '=' ∈ r) : less l r = decide (keyOf l ++ ['='] < keyOf r ++ ['=']) := by
  unfold less
  simp only
  split
  · rename_i h
    rw [take_key, h, take_key]
    exact decide_eq_decide.2 (lt_same h)
  · rename_i h
    refine decide_eq_decide.2 ?_
    have := lt_tail (a := keyOf l) (b := keyOf r) (v := l.drop ((keyOf l).length + 1)) (w := r.drop ((keyOf r).length + 1)) keyOf_free keyOf_free
      (fun e => h (by rw [e]))
    rw [← split_eq hl, ← split_eq hr] at this
    exact this

/-- C233 is false of the code: A and A=x are equal, but A is less than A1=y and that is less than A=x. -/
theorem C233_refuted : ¬ C233_statement := by
  intro h
  have h1 := h.2.1 (c!"A") (c!"A1=y") (c!"A=x") (by decide) (by decide) (by decide) (by decide +kernel) (by decide +kernel)
  exact absurd h1 (by decide +kernel)

/-- What holds of C233: texts with an equals sign.  Missing: texts without, which PutEnv takes as a request to remove. -/
theorem C233_partial : StrictWeak (fun s => '=' ∈ s) less := by
  refine ⟨?_, ?_, ?_⟩
  · intro a ha
    rw [less_key ha ha]
    simp [List.lt_irrefl]
  · intro a b c ha hb hc h1 h2
    rw [less_key ha hb] at h1
    rw [less_key hb hc] at h2
    rw [less_key ha hc]
    simp only [decide_eq_true_eq] at *
    exact List.lt_trans h1 h2
  · intro a b c ha hb hc h1 h2 h3 h4
    rw [less_key ha hb] at h1
    rw [less_key hb ha] at h2
    rw [less_key hb hc] at h3
    rw [less_key hc hb] at h4
    rw [less_key ha hc, less_key hc ha]
    simp only [decide_eq_false_iff_not, List.not_lt] at *
    exact ⟨List.le_trans h3 h1, List.le_trans h2 h4⟩

/-- Equal means of the same name; also for texts without an equals sign. -/
theorem same_key {l r : Str} (h1 : less l r = false) (h2 : less r l = false) : keyOf l = keyOf r := by
  unfold less at h1 h2
  simp only at h1 h2
  by_cases h : (keyOf l).length = (keyOf r).length
  · rw [if_pos h] at h1
    rw [if_pos h.symm] at h2
    simp only [decide_eq_false_iff_not, List.not_lt] at h1 h2
    rw [h, take_key] at h1
    rw [take_key] at h2
    rw [← h, take_key] at h1 h2
    exact List.le_antisymm h2 h1
  · rw [if_neg h] at h1
    rw [if_neg (fun e => h e.symm)] at h2
    simp only [decide_eq_false_iff_not, List.not_lt] at h1 h2
    rw [List.le_antisymm h1 h2]

/-! ### C234 -/

/-- An entry of environ that is this code's own is the first of its name. -/
def FirstOwn (env : List Slot) : Prop := env.Pairwise (fun y x => x.block ≠ none → isEntry (keyOf x.text) y.text = false)

structure Inv (env : List Slot) (kept : List (Nat × Str)) (freed : List Nat) (next : Nat) : Prop where
  own : ∀ x ∈ env, ∀ b, x.block = some b → '=' ∈ x.text ∧ keyOf x.text ≠ [] ∧ b < next ∧ b ∉ freed ∧ ∀ t, (b, t) ∈ kept → t = x.text
  first : FirstOwn env
  keptOld : ∀ x ∈ kept, x.1 < next ∧ x.1 ∉ freed
  keptNodup : (kept.map Prod.fst).Nodup
  freedOld : ∀ b ∈ freed, b < next
  freedNodup : freed.Nodup

theorem mem_unset {env : List Slot} {n : Str} {x : Slot} (hn : n ≠ []) (he : '=' ∉ n) (h : x ∈ unsetSlots env n) :
    x ∈ env ∧ isEntry n x.text = false := by
  unfold unsetSlots at h
  rw [if_neg (fun h => h.elim hn he)] at h
  have := List.mem_filter.1 h
  exact ⟨this.1, by simpa using this.2⟩

theorem unset_sub {env : List Slot} {n : Str} : (unsetSlots env n).Sublist env := by
  unfold unsetSlots
  split
  · exact List.Sublist.refl _
  · exact List.filter_sublist

/-- After putenv the entry is there; other own entries have other names. -/
theorem mem_addSlot {env : List Slot} {n : Str} {x y : Slot} (hn : '=' ∉ n) (hf : FirstOwn env) (ho : ∀ z ∈ env, z.block ≠ none → '=' ∈ z.text)
    (h : y ∈ addSlot env n x) : y = x ∨ (y ∈ env ∧ (y.block ≠ none → isEntry n y.text = false)) := by
  induction env with
  | nil => simp only [addSlot, List.mem_singleton] at h; exact .inl h
  | cons z env ih =>
    unfold FirstOwn at hf
    rw [List.pairwise_cons] at hf
    unfold addSlot at h
    split at h
    · rename_i hz
      rcases List.mem_cons.1 h with h | h
      · exact .inl h
      · refine .inr ⟨by simp [h], fun hb => ?_⟩
        cases hy : isEntry n y.text with
        | false => rfl
        | true =>
          have h1 := hf.1 y h hb
          rw [isEntry_key hn hy, hz] at h1
          cases h1
    · rename_i hz
      rcases List.mem_cons.1 h with h | h
      · subst h; exact .inr ⟨by simp, fun _ => by simpa using hz⟩
      · rcases ih hf.2 (fun z hz => ho z (by simp [hz])) h with h | ⟨h1, h2⟩
        · exact .inl h
        · exact .inr ⟨by simp [h1], h2⟩

theorem mem_addSlot_text {env : List Slot} {n : Str} {x y : Slot} (h : y ∈ addSlot env n x) : y = x ∨ y ∈ env := by
  induction env with
  | nil => simp only [addSlot, List.mem_singleton] at h; exact .inl h
  | cons z env ih =>
    unfold addSlot at h
    split at h
    · rcases List.mem_cons.1 h with h | h
      · exact .inl h
      · exact .inr (by simp [h])
    · rcases List.mem_cons.1 h with h | h
      · exact .inr (by simp [h])
      · rcases ih h with h | h
        · exact .inl h
        · exact .inr (by simp [h])

theorem first_addSlot {env : List Slot} {n : Str} {x : Slot} (hn : '=' ∉ n) (hx : keyOf x.text = n) (hxe : '=' ∈ x.text) (hf : FirstOwn env) :
    FirstOwn (addSlot env n x) := by
  induction env with
  | nil => unfold FirstOwn addSlot; simp
  | cons z env ih =>
    unfold FirstOwn at hf
    rw [List.pairwise_cons] at hf
    unfold addSlot
    split
    · rename_i hz
      unfold FirstOwn
      rw [List.pairwise_cons]
      refine ⟨fun y hy hb => ?_, hf.2⟩
      have h1 := hf.1 y hy hb
      cases h2 : isEntry (keyOf y.text) x.text with
      | false => rfl
      | true =>
        have h3 := isEntry_key keyOf_free h2
        rw [← h3, hx, hz] at h1
        cases h1
    · rename_i hz
      unfold FirstOwn
      rw [List.pairwise_cons]
      refine ⟨fun y hy hb => ?_, ih hf.2⟩
      rcases mem_addSlot_text hy with h | h
      · subst h; rw [hx]; simpa using hz
      · exact hf.1 y h hb

theorem mem_without {kept : List (Nat × Str)} {o : Option (Nat × Str)} {y : Nat × Str} (h : y ∈ without kept o) :
    y ∈ kept ∧ ∀ x, o = some x → y.1 ≠ x.1 := by
  cases o with
  | none => exact ⟨h, fun x e => by cases e⟩
  | some x =>
    have := List.mem_filter.1 h
    exact ⟨this.1, fun z e => by cases e; simpa using this.2⟩

theorem without_sub {kept : List (Nat × Str)} {o : Option (Nat × Str)} : (without kept o).Sublist kept := by
  cases o with
  | none => exact List.Sublist.refl _
  | some x => exact List.filter_sublist

theorem mem_freeOld {freed : List Nat} {o : Option (Nat × Str)} {b : Nat} (h : b ∈ freeOld freed o) : b ∈ freed ∨ ∃ t, o = some (b, t) := by
  cases o with
  | none => exact .inl h
  | some x =>
    rcases List.mem_cons.1 h with h | h
    · exact .inr ⟨x.2, by rw [h]⟩
    · exact .inl h

/-- A block is released: the entries that remain do not have its name. -/
theorem release {env env' : List Slot} {kept : List (Nat × Str)} {freed : List Nat} {next : Nat} {s : Str} {old : Option (Nat × Str)}
    (hi : Inv env kept freed next) (hfo : Found kept s old) (hf : FirstOwn env')
    (hsub : ∀ x ∈ env', x.block ≠ none → x ∈ env ∧ isEntry (keyOf s) x.text = false) :
    Inv env' (without kept old) (freeOld freed old) next := by
  have hold : ∀ x, old = some x → x ∈ kept ∧ keyOf x.2 = keyOf s := by
    rintro x rfl
    exact ⟨hfo.1, same_key hfo.2.1 hfo.2.2⟩
  refine ⟨?_, hf, ?_, ?_, ?_, ?_⟩
  · intro x hx b hb
    obtain ⟨h1, h2⟩ := hsub x hx (by rw [hb]; simp)
    obtain ⟨k1, k2, k3, k4, k5⟩ := hi.own x h1 b hb
    refine ⟨k1, k2, k3, fun hm => ?_, fun t ht => k5 t (mem_without ht).1⟩
    rcases mem_freeOld hm with hm | ⟨t, rfl⟩
    · exact k4 hm
    · obtain ⟨h3, h4⟩ := hold _ rfl
      have h5 := k5 t h3
      simp only at h4
      rw [h5] at h4
      rw [← h4, isEntry_self k1] at h2
      cases h2
  · intro x hx
    obtain ⟨h1, h2⟩ := mem_without hx
    refine ⟨(hi.keptOld x h1).1, fun hm => ?_⟩
    rcases mem_freeOld hm with hm | ⟨t, e⟩
    · exact (hi.keptOld x h1).2 hm
    · exact h2 _ e rfl
  · exact hi.keptNodup.sublist (without_sub.map _)
  · intro b hb
    rcases mem_freeOld hb with hm | ⟨t, e⟩
    · exact hi.freedOld b hm
    · exact (hi.keptOld _ (hold _ e).1).1
  · cases old with
    | none => exact hi.freedNodup
    | some x =>
      show (x.1 :: freed).Nodup
      rw [List.nodup_cons]
      exact ⟨(hi.keptOld x (hold x rfl).1).2, hi.freedNodup⟩

theorem key_ne {s : Str} (h0 : s ≠ []) (h1 : s.head? ≠ some '=') : keyOf s ≠ [] := by
  cases s with
  | nil => exact absurd rfl h0
  | cons c s =>
    unfold keyOf
    rw [List.takeWhile_cons, if_pos]
    · simp
    · simp only [bne_iff_ne]; rintro rfl; exact h1 rfl

/-- After unsetenv no own entry of this name is left; for the empty name there was none. -/
theorem unset_own {env : List Slot} {kept : List (Nat × Str)} {freed : List Nat} {next : Nat} (hi : Inv env kept freed next) (n : Str) (hn : '=' ∉ n)
    (x : Slot) (hx : x ∈ unsetSlots env n) (hb : x.block ≠ none) : x ∈ env ∧ isEntry n x.text = false := by
  by_cases h0 : n = []
  · subst h0
    have h1 := unset_sub.mem hx
    refine ⟨h1, ?_⟩
    cases hb2 : x.block with
    | none => exact absurd hb2 hb
    | some b =>
      cases h2 : isEntry [] x.text with
      | false => rfl
      | true => exact absurd (isEntry_key hn h2) (hi.own x h1 b hb2).2.1
  · exact mem_unset h0 hn hx

theorem fresh_inv {env : List Slot} {kept kept' : List (Nat × Str)} {freed : List Nat} {next : Nat} {s : Str} (hi : Inv env kept freed next)
    (hk : kept' = (next, s) :: kept ∨ kept' = kept) : Inv env kept' freed (next + 1) := by
  refine ⟨?_, hi.first, ?_, ?_, fun b hb => by have := hi.freedOld b hb; omega, hi.freedNodup⟩
  · intro x hx b hb
    obtain ⟨k1, k2, k3, k4, k5⟩ := hi.own x hx b hb
    refine ⟨k1, k2, by omega, k4, fun t ht => ?_⟩
    rcases hk with rfl | rfl
    · rcases List.mem_cons.1 ht with ht | ht
      · have := (Prod.mk.inj ht).1; omega
      · exact k5 t ht
    · exact k5 t ht
  · intro x hx
    have old : x ∈ kept → x.1 < next + 1 ∧ x.1 ∉ freed := fun h => ⟨by have := (hi.keptOld x h).1; omega, (hi.keptOld x h).2⟩
    rcases hk with rfl | rfl
    · rcases List.mem_cons.1 hx with rfl | hx
      · exact ⟨by simp, fun h => by have := hi.freedOld _ h; simp at this⟩
      · exact old hx
    · exact old hx
  · rcases hk with rfl | rfl
    · rw [List.map_cons, List.nodup_cons]
      refine ⟨fun h => ?_, hi.keptNodup⟩
      obtain ⟨y, hy, e⟩ := List.mem_map.1 h
      have := (hi.keptOld y hy).1
      simp only at e
      omega
    · exact hi.keptNodup

theorem call_inv {m m' : Mem} {o : Op} (hi : Inv m.environ m.kept m.freed m.next) (ho : o.text.head? ≠ some '=') (h : Call m o m') :
    Inv m'.environ m'.kept m'.freed m'.next := by
  cases h with
  | unput hfo => exact release hi hfo (hi.first.sublist unset_sub) (unset_own hi _ keyOf_free)
  | @put s old kept' hfo hk =>
    change s.head? ≠ some '=' at ho
    show Inv (putenvSlot m.environ ⟨some m.next, s⟩) kept' (freeOld m.freed old) (m.next + 1)
    unfold putenvSlot
    by_cases he : '=' ∈ s
    · rw [if_pos he]
      have h0 : keyOf s ≠ [] := key_ne (by rintro rfl; simp at he) ho
      have hmem := fun y (hy : y ∈ addSlot m.environ (keyOf s) ⟨some m.next, s⟩) => mem_addSlot keyOf_free hi.first
        (fun z hz hb => by
          cases hb2 : z.block with
          | none => exact absurd hb2 hb
          | some b => exact (hi.own z hz b hb2).1) hy
      -- the invariant for the entries without the new one
      have h1 : Inv ((addSlot m.environ (keyOf s) ⟨some m.next, s⟩).filter (fun x => x.block != some m.next)) (without m.kept old) (freeOld m.freed old) m.next := by
        refine release hi hfo ((first_addSlot (x := ⟨some m.next, s⟩) keyOf_free rfl he hi.first).sublist List.filter_sublist) fun x hx hb => ?_
        obtain ⟨h2, h3⟩ := List.mem_filter.1 hx
        rcases hmem x h2 with rfl | h4
        · simp at h3
        · exact ⟨h4.1, h4.2 hb⟩
      have h2 := fresh_inv (s := s) h1 hk
      refine ⟨?_, first_addSlot (x := ⟨some m.next, s⟩) keyOf_free rfl he hi.first, h2.keptOld, h2.keptNodup, h2.freedOld, h2.freedNodup⟩
      intro x hx b hb
      rcases hmem x hx with rfl | h4
      · cases hb
        refine ⟨he, h0, by simp, fun hm => ?_, fun t ht => ?_⟩
        · have := h1.freedOld _ hm; omega
        · rcases hk with rfl | rfl
          · rcases List.mem_cons.1 ht with ht | ht
            · exact (Prod.mk.inj ht).2
            · have := (h1.keptOld _ ht).1; simp at this
          · have := (h1.keptOld _ ht).1; simp at this
      · refine h2.own x (List.mem_filter.2 ⟨hx, ?_⟩) b hb
        have := (hi.own x h4.1 b hb).2.2.1
        rw [hb]
        simp only [bne_iff_ne, ne_eq, Option.some.injEq]
        omega
    · rw [if_neg he]
      refine fresh_inv (s := s) (release hi hfo (hi.first.sublist unset_sub) ?_) hk
      rw [keyOf_noeq he]
      exact unset_own hi s he

theorem calls_inv {m m' : Mem} {ops : List Op} (hi : Inv m.environ m.kept m.freed m.next) (ho : ∀ o ∈ ops, o.text.head? ≠ some '=')
    (h : Calls m ops m') : Inv m'.environ m'.kept m'.freed m'.next := by
  induction h with
  | nil => exact hi
  | cons h1 _ ih => exact ih (call_inv hi (ho _ (by simp)) h1) (fun o h => ho o (by simp [h]))

theorem less_irrefl (s : Str) : less s s = false := by
  unfold less
  simp [List.lt_irrefl]

theorem exit_inv (l : List (Nat × Str)) (m : Mem) (hi : Inv m.environ l m.freed m.next) : Inv (atExit m l).environ [] (atExit m l).freed (atExit m l).next := by
  induction l generalizing m with
  | nil => exact hi
  | cons x l ih =>
    refine ih { m with environ := unsetSlots m.environ (keyOf x.2), freed := x.1 :: m.freed } ?_
    have h1 := release (s := x.2) (old := some x) hi ⟨by simp, less_irrefl _, less_irrefl _⟩ (hi.first.sublist unset_sub) (unset_own hi _ keyOf_free)
    have hl : without (x :: l) (some x) = l := by
      have hn := hi.keptNodup
      rw [List.map_cons, List.nodup_cons] at hn
      unfold without
      simp only
      rw [List.filter_cons_of_neg (by simp), List.filter_eq_self]
      intro y hy
      simp only [bne_iff_ne]
      exact fun e => hn.1 (List.mem_map.2 ⟨y, hy, e⟩)
    rw [hl] at h1
    exact h1

theorem inv_safe {m : Mem} {kept : List (Nat × Str)} (hi : Inv m.environ kept m.freed m.next) : Safe m :=
  ⟨fun x hx b hb => (hi.own x hx b hb).2.2.2.1, hi.freedNodup⟩

/-- C234 is false of the code: PutEnv("=x") and UnPutEnv("=x") leave an entry that points to freed memory. -/
theorem C234_refuted : ¬ C234_statement := by
  intro h
  have h1 : Calls { environ := [], kept := [], freed := [], next := 0 } [.put (c!"=x"), .unput (c!"=x")]
      { environ := [⟨some 0, c!"=x"⟩], kept := [], freed := [0], next := 1 } := by
    refine .cons (.put (old := none) trivial (.inl rfl)) (.cons (.unput (old := some (0, c!"=x")) ⟨by simp [without], by decide, by decide⟩) ?_)
    exact .nil
  have h2 := (h [] _ _ (by decide) h1).1.1 _ (List.mem_singleton.2 rfl) 0 rfl
  exact h2 (by simp)

/-- What holds of C234: texts that do not start with an equals sign.  Missing: the others. -/
theorem C234_partial (env : List Str) (ops : List Op) (m : Mem) (ho : ∀ o ∈ ops, o.text.head? ≠ some '=')
    (h : Calls { environ := env.map (Slot.mk none), kept := [], freed := [], next := 0 } ops m) : Safe m ∧ Safe (atExit m m.kept) := by
  have h0 : Inv (env.map (Slot.mk none)) [] [] 0 := by
    have hno : ∀ x ∈ env.map (Slot.mk none), x.block = none := by
      intro x hx
      obtain ⟨t, _, rfl⟩ := List.mem_map.1 hx
      rfl
    refine ⟨fun x hx b hb => ?_, ?_, by simp, by simp, by simp, by simp⟩
    · rw [hno x hx] at hb; cases hb
    · exact List.pairwise_of_forall_mem_list fun y _ x hx hb => absurd (hno x hx) hb
  have h1 := calls_inv h0 ho h
  exact ⟨inv_safe h1, inv_safe (exit_inv _ _ h1)⟩

/-- A concrete case for C234: two values of A; the first block is freed, the second is in environ. -/
example : Calls { environ := [⟨none, c!"A=0"⟩], kept := [], freed := [], next := 0 } [.put (c!"A=1"), .put (c!"A=2")]
    { environ := [⟨some 1, c!"A=2"⟩], kept := [(1, c!"A=2")], freed := [0], next := 2 } :=
  .cons (.put (old := none) trivial (.inl rfl)) (.cons (.put (old := some (0, c!"A=1")) ⟨by simp [without], by decide, by decide⟩ (.inl rfl)) .nil)

end Vital.Sys.Envr
