/-
  `find` on a compiled expression: the leftmost place with a way to match, and the first way there; the optimizations of `compile`
  change nothing.
-/
import Verif.Regex.Match2

namespace Vital.Regex
open Re

/-- The pointers after a way to match. -/
def capsOf (tr : List Evt) : Caps := tr.foldr Evt.note Caps.none

/-- The first place with a way to match, and the first way to match there. -/
def search (n : Nat) (r : Re) : List Nat → Option (List Nat × Out)
  | [] => (outs n r []).head?.map (fun p => ([], p))
  | c :: t =>
    match (outs n r (c :: t)).head? with
    | some p => some (c :: t, p)
    | none => search n r t

/-- The result of `find` for a way to match found from a place. -/
def foundOf (n : Nat) : Option (List Nat × Out) → FRes
  | none => .no
  | some (u, p) => .yes ⟨n - u.length, n - p.1.length, capsOf p.2⟩

theorem firstRes_end (l : List Out) : firstRes (fun v => .ok v Caps.none) l = match l.head? with | none => .fail | some p => .ok p.1 (capsOf p.2) := by
  cases l with
  | nil => rfl
  | cons p l => simp [firstRes, Res.after, capsOf]

theorem codeOk_progOf {r : Re} (hw : r.wf) (ha : r.isAlt = true) (hl : len r + 4 < 65536) : CodeOk (progOf r) :=
  ⟨by rw [progOf_length hw ha]; exact hl, ⟨156 :: (asmAlt r (some 0) (some 0) ++ [0, 0]), by simp [progOf, node]⟩⟩

/-- The matcher on a whole program. -/
theorem ev_prog {r : Re} (hw : r.wf) (ha : r.isAlt = true) (hl : len r + 4 < 65536) (n : Nat) (u : List Nat) :
    Ev (progOf r) n 1 u (firstRes (fun v => .ok v Caps.none) (outs n r u)) := by
  have hc := codeOk_progOf hw ha hl
  have hat := progOf_at r
  have hend := hat.right
  rw [asmAlt_length hw ha] at hend
  have hlen := progOf_length hw ha
  refine ((match_both hc n r).2 1 0 u _ hw ha hat.left (by omega) ?_ ?_).2
  · rw [show 1 + len r + 0 = 1 + len r by omega, hend.op]; simp
  · intro p _
    refine ⟨1, fun f hf => ?_⟩
    obtain ⟨f, rfl⟩ : ∃ k, f = k + 1 := ⟨f - 1, by omega⟩
    have := hend.op
    simp [regmatch, this]

/-- `regtry` with enough steps. -/
theorem regtry_eq {r : Re} (hw : r.wf) (ha : r.isAlt = true) (hl : len r + 4 < 65536) (q : Prog) (hq : q.code = progOf r) (n : Nat) (u : List Nat) :
    ∃ N, ∀ f, N ≤ f → regtry q n f u = foundOf n ((outs n r u).head?.map (fun p => (u, p))) := by
  obtain ⟨N, hN⟩ := ev_prog hw ha hl n u
  refine ⟨N, fun f hf => ?_⟩
  simp only [regtry, hq, hN f hf, firstRes_end]
  cases (outs n r u).head? <;> simp [foundOf]

theorem search_none {n : Nat} {r : Re} {t : List Nat} : search n r t = none ↔ ∀ u, u <:+ t → outs n r u = [] := by
  induction t with
  | nil => simp [search]
  | cons c t ih =>
    simp only [search]
    constructor
    · intro h u hu
      split at h
      · cases h
      · rename_i h1
        rcases List.suffix_cons_iff.mp hu with rfl | hu
        · simpa using h1
        · exact ih.mp h u hu
    · intro h
      rw [h (c :: t) (List.suffix_refl _)]
      exact ih.mpr (fun u hu => h u (hu.trans (List.suffix_cons _ _)))

/-- The place found is the first one with a way to match. -/
theorem search_some {n : Nat} {r : Re} {t u : List Nat} {p : Out} (h : search n r t = some (u, p)) :
    u <:+ t ∧ (outs n r u).head? = some p ∧ ∀ w, w <:+ t → u.length < w.length → outs n r w = [] := by
  induction t with
  | nil =>
    simp only [search, Option.map_eq_some_iff] at h
    obtain ⟨q, hq, he⟩ := h
    cases he
    refine ⟨List.suffix_refl _, hq, fun w hw hl => ?_⟩
    simp at hw; subst hw; simp at hl
  | cons c t ih =>
    simp only [search] at h
    split at h
    · rename_i q hq
      cases h
      refine ⟨List.suffix_refl _, hq, fun w hw hl => ?_⟩
      have := hw.length_le
      omega
    · rename_i h1
      obtain ⟨a, b, d⟩ := ih h
      refine ⟨a.trans (List.suffix_cons _ _), b, fun w hw hl => ?_⟩
      rcases List.suffix_cons_iff.mp hw with rfl | hw
      · simpa using h1
      · exact d w hw hl

/-! ### The optimizations -/

/-- A literal at the front is in front of every match. -/
theorem lang_start {n : Nat} {r : Re} {u v : List Nat} (h : Lang n r u v) : ∀ s, leftmost r = .lit s → s <+: u := by
  induction h with
  | lit => intro s hs; simp [leftmost] at hs; subst hs; exact List.prefix_append _ _
  | plus h1 h2 ih1 _ =>
    intro s hs
    simp only [leftmost] at hs
    split at hs
    · cases hs
    · exact ih1 s hs
  | cat h1 h2 ih1 ih2 => intro s hs; exact ih1 s hs
  | _ => intro s hs; simp [leftmost] at hs

/-- An anchored expression matches only at the beginning. -/
theorem lang_anch {n : Nat} {r : Re} {u v : List Nat} (h : Lang n r u v) : leftmost r = .bol → u.length = n := by
  induction h with
  | bol h => intro _; exact h
  | plus h1 h2 ih1 _ =>
    intro hs
    simp only [leftmost] at hs
    split at hs
    · cases hs
    · exact ih1 hs
  | cat h1 h2 ih1 ih2 => intro hs; exact ih1 hs
  | _ => intro hs; simp [leftmost] at hs

/-- The literal that must occur does. -/
theorem lang_must {n : Nat} {r : Re} {u v : List Nat} (h : Lang n r u v) : ∀ best m, mustO best r = some m → best = some m ∨ m <:+: u := by
  induction h with
  | lit =>
    rename_i s v
    intro best m hm
    simp only [mustO] at hm
    split at hm
    · cases hm; exact Or.inr (List.prefix_append _ _).isInfix
    · exact Or.inl hm
  | plus h1 h2 ih1 _ =>
    intro best m hm
    simp only [mustO] at hm
    split at hm
    · exact Or.inl hm
    · exact ih1 best m hm
  | cat h1 h2 ih1 ih2 =>
    intro best m hm
    simp only [mustO] at hm
    rcases ih2 _ m hm with h | h
    · exact ih1 best m h
    · exact Or.inr (h.trans (lang_suffix h1).isInfix)
  | _ => intro best m hm; exact Or.inl (by simpa [mustO] using hm)

theorem mustO_ne {r : Re} : r.wf → ∀ best m, (∀ b, best = some b → b ≠ []) → mustO best r = some m → m ≠ [] := by
  induction r with
  | lit s =>
    intro hw best m hb hm
    simp only [mustO] at hm
    split at hm
    · cases hm; exact hw.1
    · exact hb m hm
  | plus r ih =>
    intro hw best m hb hm
    simp only [mustO] at hm
    split at hm
    · exact hb m hm
    · exact ih hw.2.2 best m hb hm
  | cat a b iha ihb =>
    intro hw best m hb hm
    simp only [mustO] at hm
    exact ihb hw.2.2.2 _ m (fun b hb' => iha hw.2.2.1 best b hb hb') hm
  | _ => intro hw best m hb hm; exact hb m (by simpa [mustO] using hm)

/-- The check for a literal. -/
theorem hasMust_iff {m : List Nat} (hm : m ≠ []) (t : List Nat) : hasMust m t = true ↔ m <:+: t := by
  induction t with
  | nil => simp [hasMust, hm]
  | cons c t ih =>
    obtain ⟨a, m', rfl⟩ : ∃ a m', m = a :: m' := by cases m with | nil => exact absurd rfl hm | cons a m' => exact ⟨a, m', rfl⟩
    simp only [hasMust, List.infix_cons_iff]
    by_cases h : c = (a :: m').headD 0 ∧ (a :: m').isPrefixOf (c :: t) = true
    · rw [if_pos h]
      simp only [true_iff]
      exact Or.inl (List.isPrefixOf_iff_prefix.mp h.2)
    · rw [if_neg h, ih]
      constructor
      · exact Or.inr
      · rintro (hp | hp)
        · exfalso
          apply h
          refine ⟨?_, List.isPrefixOf_iff_prefix.mpr hp⟩
          exact (List.cons_prefix_cons.mp hp).1.symm
        · exact hp

theorem tryFrom_eq {r : Re} (hw : r.wf) (ha : r.isAlt = true) (hl : len r + 4 < 65536) (q : Prog) (hq : q.code = progOf r) (n : Nat)
    (hs : q.start ≠ 0 → ∀ u, outs n r u ≠ [] → u.head? = some q.start) (t : List Nat) :
    ∃ N, ∀ f, N ≤ f → tryFrom q n f t = foundOf n (search n r t) := by
  induction t with
  | nil =>
    obtain ⟨N, hN⟩ := regtry_eq hw ha hl q hq n []
    refine ⟨N, fun f hf => ?_⟩
    simp only [tryFrom, search]
    split
    · rename_i h0
      have : outs n r [] = [] := by
        rcases Classical.em (outs n r [] = []) with h | h
        · exact h
        · have := hs h0 [] h; simp at this
      simp [this, foundOf]
    · exact hN f hf
  | cons c t ih =>
    obtain ⟨N1, hN1⟩ := ih
    obtain ⟨N2, hN2⟩ := regtry_eq hw ha hl q hq n (c :: t)
    refine ⟨max N1 N2, fun f hf => ?_⟩
    simp only [tryFrom, search]
    split
    · rename_i h0
      have : outs n r (c :: t) = [] := by
        rcases Classical.em (outs n r (c :: t) = []) with h | h
        · exact h
        · have := hs h0.1 _ h; simp at this; exact absurd this h0.2
      simp only [this, List.head?_nil]
      exact hN1 f (by omega)
    · rw [hN2 f (by omega), hN1 f (by omega)]
      cases (outs n r (c :: t)).head? <;> simp [foundOf]

/-- `find` on a compiled expression. -/
theorem find_eq {r : Re} (hw : r.wf) (ha : r.isAlt = true) (hl : len r + 4 < 65536) (text : List Nat) :
    ∃ N, ∀ f, N ≤ f → find (optOf r) f text = foundOf text.length (search text.length r text) := by
  have hcode : (optOf r).code = progOf r := by unfold optOf; split <;> rfl
  have hmust : ∀ m, (optOf r).must = some m → m ≠ [] ∧ ∀ u, outs text.length r u ≠ [] → m <:+: u := by
    intro m hm
    cases r with
    | last b =>
      simp only [optOf] at hm
      split at hm
      · refine ⟨mustO_ne hw.2 none m (by simp) hm, fun u hu => ?_⟩
        obtain ⟨p, l, hp⟩ := List.exists_cons_of_ne_nil hu
        have := outs_lang (.last b) u p (by rw [hp]; simp)
        cases this with
        | last h => simpa using lang_must h none m hm
      · cases hm
    | _ => simp [optOf] at hm
  have hst : (optOf r).start ≠ 0 → ∀ u, outs text.length r u ≠ [] → u.head? = some (optOf r).start := by
    intro h0 u hu
    cases r with
    | last b =>
      obtain ⟨p, l, hp⟩ := List.exists_cons_of_ne_nil hu
      have := outs_lang (.last b) u p (by rw [hp]; simp)
      cases this with
      | last h =>
        simp only [optOf] at h0 ⊢
        split at h0
        · rename_i s hs
          obtain ⟨x, hx⟩ := lang_start h s hs
          cases s with
          | nil => simp at h0
          | cons a s => rw [← hx]; simp
        · exact absurd rfl h0
    | _ => simp [optOf] at h0
  have han : (optOf r).anch = true → ∀ u, outs text.length r u ≠ [] → u.length = text.length := by
    intro h0 u hu
    cases r with
    | last b =>
      obtain ⟨p, l, hp⟩ := List.exists_cons_of_ne_nil hu
      have := outs_lang (.last b) u p (by rw [hp]; simp)
      cases this with
      | last h =>
        simp only [optOf, beq_iff_eq] at h0
        exact lang_anch h h0
    | _ => simp [optOf] at h0
  obtain ⟨N1, hN1⟩ := tryFrom_eq hw ha hl (optOf r) hcode text.length hst text
  obtain ⟨N2, hN2⟩ := regtry_eq hw ha hl (optOf r) hcode text.length text
  refine ⟨max N1 N2, fun f hf => ?_⟩
  have tail : (if (optOf r).anch then regtry (optOf r) text.length f text else tryFrom (optOf r) text.length f text) =
      foundOf text.length (search text.length r text) := by
    by_cases hanch : (optOf r).anch = true
    · rw [if_pos hanch, hN2 f (by omega)]
      have hz : ∀ w, w <:+ text → w.length < text.length → outs text.length r w = [] := by
        intro w _ hlt
        rcases Classical.em (outs text.length r w = []) with h | h
        · exact h
        · have := han hanch w h; omega
      cases text with
      | nil => rfl
      | cons c t =>
        simp only [search]
        cases hh : (outs (c :: t).length r (c :: t)).head? with
        | some p => rfl
        | none =>
          have : search (c :: t).length r t = none := by
            rw [search_none]
            intro u hu
            exact hz u (hu.trans (List.suffix_cons _ _)) (by have := hu.length_le; simp; omega)
          simp only [this]; rfl
    · rw [if_neg hanch]
      exact hN1 f (by omega)
  unfold find
  split
  · rename_i m hm
    by_cases hmm : hasMust m text = false
    · rw [if_pos hmm]
      have : search text.length r text = none := by
        rw [search_none]
        intro u hu
        rcases Classical.em (outs text.length r u = []) with h | h
        · exact h
        · exfalso
          obtain ⟨h1, h2⟩ := hmust m hm
          have := (hasMust_iff h1 text).mpr ((h2 u h).trans hu.isInfix)
          rw [this] at hmm; cases hmm
      rw [this]; rfl
    · rw [if_neg hmm]; exact tail
  · rw [if_neg (by simp)]; exact tail

end Vital.Regex
