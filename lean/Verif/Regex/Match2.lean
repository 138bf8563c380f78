/-
  `regmatch` on the code of a tree: the proof by induction on the tree.
-/
import Verif.Regex.Match

namespace Vital.Regex
open Re

theorem ev_open {code : List Nat} {n a t no : Nat} {u : List Nat} {R : Res} (h1 : 1 ≤ no) (h9 : no ≤ 9) (hop : code[a]? = some (20 + no))
    (hn : regnext code a = some t) (h : Ev code n t u R) : Ev code n a u (R.after [.opn no (n - u.length)]) := by
  obtain ⟨N, hN⟩ := h
  refine ⟨N + 1, fun f hf => ?_⟩
  obtain ⟨f, rfl⟩ : ∃ k, f = k + 1 := ⟨f - 1, by omega⟩
  have e := hN f (by omega)
  simp only [regmatch, hop, hn, e]
  rw [if_neg (by omega), if_neg (by omega), if_neg (by omega), if_neg (by omega), if_neg (by omega), if_neg (by omega), if_neg (by omega),
    if_pos (by omega)]
  cases R with
  | ok v c => simp only [Res.after, List.foldr, Evt.note]; congr 2; omega
  | _ => rfl

theorem ev_close {code : List Nat} {n a t no : Nat} {u : List Nat} {R : Res} (h1 : 1 ≤ no) (h9 : no ≤ 9) (hop : code[a]? = some (30 + no))
    (hn : regnext code a = some t) (h : Ev code n t u R) : Ev code n a u (R.after [.cls no (n - u.length)]) := by
  obtain ⟨N, hN⟩ := h
  refine ⟨N + 1, fun f hf => ?_⟩
  obtain ⟨f, rfl⟩ : ∃ k, f = k + 1 := ⟨f - 1, by omega⟩
  have e := hN f (by omega)
  simp only [regmatch, hop, hn, e]
  rw [if_neg (by omega), if_neg (by omega), if_neg (by omega), if_neg (by omega), if_neg (by omega), if_neg (by omega), if_neg (by omega),
    if_neg (by omega), if_pos (by omega)]
  cases R with
  | ok v c => simp only [Res.after, List.foldr, Evt.note]; congr 2; omega
  | _ => rfl

theorem firstRes_group (K : List Nat → Res) (n no : Nat) (e : Evt) (l : List Out) :
    firstRes K (l.map (fun p => (p.1, e :: p.2 ++ [.cls no (n - p.1.length)]))) =
      (firstRes (fun v => (K v).after [.cls no (n - v.length)]) l).after [e] := by
  induction l with
  | nil => rfl
  | cons p l ih =>
    rw [List.map_cons, firstRes_cons, firstRes_cons, ih, after_orElse]
    congr 1
    rw [← after_append, ← after_append]; rfl

/-- The results of a test on the next character. -/
theorem ev_char {code : List Nat} {n a t op : Nat} {u : List Nat} {K : List Nat → Res} {r : Re} {k : Option Nat} (hw : r.wf)
    (hr : (r = .any ∨ ∃ neg cs, r = .set neg cs)) (hop : code[a]? = some op) (hat : At code a (asm r k)) (hn : regnext code a = some t)
    (h : ∀ p ∈ outs n r u, Ev code n t p.1 (K p.1)) : Ev code n a u (firstRes K (outs n r u)) := by
  obtain ⟨N, hN⟩ := ev_all h
  refine ⟨N + 1, fun f hf => ?_⟩
  obtain ⟨f, rfl⟩ : ∃ k, f = k + 1 := ⟨f - 1, by omega⟩
  have hN' := hN f (by omega)
  rcases hr with rfl | ⟨neg, cs, rfl⟩
  · simp only [asm] at hat
    simp only [regmatch, hat.op, hn]
    cases u with
    | nil => simp [outs, firstRes]
    | cons c v =>
      have := hN' (v, []) (by simp [outs])
      simp only at this
      simp [outs, firstRes_one, this]
  · simp only [asm] at hat
    have hc : cstr code (a + 3) = some cs := cstr_of (by rw [List.append_assoc] at hat; exact hat.right) hw
    cases neg
    · simp only [Bool.false_eq_true, if_false] at hat
      simp only [regmatch, hat.left.left.op, hn, hc]
      cases u with
      | nil => simp [outs, firstRes]
      | cons c v =>
        by_cases hcc : cs.contains c = true
        · have := hN' (v, []) (by simp only [outs, hcc]; simp)
          simp only at this
          simp only [outs, hcc]
          simp [firstRes_one, this]
        · simp only [outs, hcc]; simp [firstRes]
    · simp only [if_true] at hat
      simp only [regmatch, hat.left.left.op, hn, hc]
      cases u with
      | nil => simp [outs, firstRes]
      | cons c v =>
        by_cases hcc : cs.contains c = true
        · simp only [outs, hcc]; simp [firstRes]
        · have hcf : cs.contains c = false := by simpa using hcc
          have := hN' (v, []) (by simp only [outs, hcf]; simp)
          simp only at this
          simp only [outs, hcf]
          simp [firstRes_one, this]

theorem isPrefix_head {s u : List Nat} (hs : s ≠ []) (h : s.isPrefixOf u = true) : s.headD 0 = u.headD 0 := by
  cases s with
  | nil => exact absurd rfl hs
  | cons c s =>
    cases u with
    | nil => simp [List.isPrefixOf] at h
    | cons d u => simp [List.isPrefixOf] at h; simp [h.1]

theorem head_isPrefix {c : Nat} {u : List Nat} (h0 : c ≠ 0) (h : c = u.headD 0) : [c].isPrefixOf u = true := by
  cases u with
  | nil => simp at h; exact absurd h h0
  | cons d u => simp at h; simp [List.isPrefixOf, h]

theorem ev_lit {code : List Nat} {n a t : Nat} {u s : List Nat} {K : List Nat → Res} {k : Option Nat} (hw : (Re.lit s).wf)
    (hat : At code a (asm (.lit s) k)) (hn : regnext code a = some t)
    (h : ∀ p ∈ outs n (.lit s) u, Ev code n t p.1 (K p.1)) : Ev code n a u (firstRes K (outs n (.lit s) u)) := by
  obtain ⟨N, hN⟩ := ev_all h
  refine ⟨N + 1, fun f hf => ?_⟩
  obtain ⟨f, rfl⟩ : ∃ k, f = k + 1 := ⟨f - 1, by omega⟩
  have hN' := hN f (by omega)
  simp only [asm] at hat
  have hc : cstr code (a + 3) = some s := cstr_of (by rw [List.append_assoc] at hat; exact hat.right) hw.2
  simp only [regmatch, hat.left.left.op, hn, hc]
  rw [if_neg (by omega), if_neg (by omega), if_neg (by omega), if_pos trivial]
  by_cases hp : s.isPrefixOf u = true
  · have := hN' (u.drop s.length, []) (by simp only [outs, hp]; simp)
    simp only at this
    rw [if_neg (by simpa using isPrefix_head hw.1 hp), if_neg (by simp [hp])]
    simp only [outs, hp, if_true, firstRes_one, this]
  · simp only [outs, hp]
    simp only [Bool.false_eq_true, if_false, firstRes]
    by_cases hh : s.headD 0 = u.headD 0
    · have h1 : 1 < s.length := by
        rcases Nat.lt_or_ge 1 s.length with h | h
        · exact h
        · exfalso
          have hpos := List.length_pos_iff.mpr hw.1
          match s, (show s.length = 1 by omega) with
          | [c], _ =>
            have h0 := hw.2
            simp at h0 hh
            exact hp (head_isPrefix (fun e => h0 e.symm) (by simpa using hh))
      rw [if_neg (by simpa using hh), if_pos ⟨h1, by simpa using hp⟩]
    · rw [if_pos hh]

theorem outs_notin {n : Nat} {r : Re} {u : List Nat} (h0 : 0 ∉ u) {p : Out} (hp : p ∈ outs n r u) : 0 ∉ p.1 :=
  fun hm => h0 ((lang_suffix (outs_lang r u p hp)).subset hm)

/-- Statement for branches. -/
def MatchA (code : List Nat) (n : Nat) (r : Re) : Prop :=
  ∀ a k u K, r.wf → r.isAlt = false → At code a (asm r (some k)) → a + len r + k < code.length →
    (∀ p ∈ outs n r u, Ev code n (a + len r + k) p.1 (K p.1)) → Ev code n a u (firstRes K (outs n r u))

/-- Statement for alternatives. -/
def MatchB (code : List Nat) (n : Nat) (r : Re) : Prop :=
  ∀ a k u K, r.wf → r.isAlt = true → At code a (asmAlt r (some k) (some k)) → a + len r + k < code.length → code[a + len r + k]? ≠ some 6 →
    (∀ p ∈ outs n r u, Ev code n (a + len r + k) p.1 (K p.1)) →
    (∃ N, ∀ f, N ≤ f → ∀ M, len r ≤ M → tryBranches (regmatch code n f) code u M a = firstRes K (outs n r u)) ∧
    Ev code n a u (firstRes K (outs n r u))

theorem ev_cast {code : List Nat} {n a a' : Nat} {u : List Nat} {R : Res} (h : Ev code n a u R) (e : a = a') : Ev code n a' u R := e ▸ h

theorem match_star {code : List Nat} (hc : CodeOk code) {n : Nat} {r : Re} (ih : MatchA code n r) (hs : r.simple = false) : MatchA code n (.star r) := by
  intro a k u K hw _ hat hk h
  have hl := asm_length hw.2.2 hw.1
  have hsh := hc.short
  simp [asm, len, hs] at hat hk
  have hA := hat.left
  have hR := hat.right.left
  have hB := hat.right.right.left
  have hC := hat.right.right.right.left
  have hD := hat.right.right.right.right
  simp only [node_length, hl] at hR hB hC hD
  have nA : regnext code a = some (a + 3 + len r + 3) := hA.next_some (by omega) (by omega) (by omega) (by omega)
  have nB : regnext code (a + 3 + len r) = some a := by rw [hB.next (by omega)]; simp; omega
  have nC : regnext code (a + 3 + len r + 3) = some (a + 3 + len r + 3 + 3) := hC.next_some (by omega) (by omega) (by omega) (by omega)
  have nD : regnext code (a + 3 + len r + 3 + 3) = some (a + (len r + 12) + k) :=
    hD.next_some (by omega) (by simp [off]; omega) (by simp [off]; omega) (by simp [off]; omega)
  have hlen : len (.star r) = len r + 12 := by simp [len, hs]
  rw [hlen] at h
  -- induction on the length of the text
  have key : ∀ m (u : List Nat), u.length ≤ m → (∀ p ∈ outs n (.star r) u, Ev code n (a + (len r + 12) + k) p.1 (K p.1)) →
      Ev code n a u (firstRes K (outs n (.star r) u)) := by
    intro m
    induction m with
    | zero =>
      intro u hu h
      rw [star_unfold hw.2.2 hw.2.1] at h ⊢
      rw [firstRes_append, firstRes_andThen, firstRes_one]
      refine ev_two hA.op nA hC.op nC (by rw [hD.op]; simp) (by omega) ?_ ?_
      · refine ih (a + 3) 0 u _ hw.2.2 hw.1 hR (by omega) ?_
        intro p hp
        have := outs_width hw.2.2 hw.2.1 u p hp
        omega
      · exact ev_next (Or.inl hD.op) nD (h (u, []) (by simp))
    | succ m ihm =>
      intro u hu h
      rw [star_unfold hw.2.2 hw.2.1] at h ⊢
      rw [firstRes_append, firstRes_andThen, firstRes_one]
      refine ev_two hA.op nA hC.op nC (by rw [hD.op]; simp) (by omega) ?_ ?_
      · refine ih (a + 3) 0 u _ hw.2.2 hw.1 hR (by omega) ?_
        intro p hp
        have hlt := outs_width hw.2.2 hw.2.1 u p hp
        refine ev_next (Or.inr hB.op) nB (ihm p.1 (by omega) ?_)
        intro q hq
        exact h (q.1, p.2 ++ q.2) (List.mem_append_left _ (mem_andThen.mpr ⟨p, hp, q, hq, rfl⟩))
      · exact ev_next (Or.inl hD.op) nD (h (u, []) (by simp))
  exact key u.length u (Nat.le_refl _) h

theorem match_plus {code : List Nat} (hc : CodeOk code) {n : Nat} {r : Re} (ih : MatchA code n r) (hs : r.simple = false) : MatchA code n (.plus r) := by
  intro a k u K hw _ hat hk h
  have hl := asm_length hw.2.2 hw.1
  have hsh := hc.short
  simp [asm, len, hs] at hat hk
  have hR := hat.left
  have hA := hat.right.left
  have hB := hat.right.right.left
  have hC := hat.right.right.right.left
  have hD := hat.right.right.right.right
  simp only [node_length, hl] at hA hB hC hD
  have nA : regnext code (a + len r) = some (a + len r + 3 + 3) := hA.next_some (by omega) (by omega) (by omega) (by omega)
  have nB : regnext code (a + len r + 3) = some a := by rw [hB.next (by omega)]; simp
  have nC : regnext code (a + len r + 3 + 3) = some (a + len r + 3 + 3 + 3) := hC.next_some (by omega) (by omega) (by omega) (by omega)
  have nD : regnext code (a + len r + 3 + 3 + 3) = some (a + (len r + 12) + k) :=
    hD.next_some (by omega) (by simp [off]; omega) (by simp [off]; omega) (by simp [off]; omega)
  have hlen : len (.plus r) = len r + 12 := by simp [len, hs]
  rw [hlen] at h
  have hplus : ∀ u, outs n (.plus r) u = andThen (outs n r u) (outs n (.star r)) := fun u => rfl
  have key : ∀ m (u : List Nat), u.length ≤ m → (∀ p ∈ outs n (.plus r) u, Ev code n (a + (len r + 12) + k) p.1 (K p.1)) →
      Ev code n a u (firstRes K (outs n (.plus r) u)) := by
    intro m
    induction m with
    | zero =>
      intro u hu h
      rw [hplus, firstRes_andThen]
      refine ih a 0 u _ hw.2.2 hw.1 hR (by omega) ?_
      intro p hp
      have := outs_width hw.2.2 hw.2.1 u p hp
      omega
    | succ m ihm =>
      intro u hu h
      rw [hplus] at h ⊢
      rw [firstRes_andThen]
      refine ih a 0 u _ hw.2.2 hw.1 hR (by omega) ?_
      intro p hp
      have hlt := outs_width hw.2.2 hw.2.1 u p hp
      have hst := star_unfold (n := n) hw.2.2 hw.2.1 p.1
      have h' : ∀ q ∈ outs n (.star r) p.1, Ev code n (a + (len r + 12) + k) q.1 (K q.1) := fun q hq =>
        h (q.1, p.2 ++ q.2) (mem_andThen.mpr ⟨p, hp, q, hq, rfl⟩)
      simp only [hst] at h' ⊢
      rw [firstRes_append, firstRes_one]
      refine ev_two hA.op nA hC.op nC (by rw [hD.op]; simp) (by omega) ?_ ?_
      · refine ev_next (Or.inr hB.op) nB (ihm p.1 (by omega) ?_)
        intro q hq
        exact h' q (List.mem_append_left _ hq)
      · exact ev_next (Or.inl hD.op) nD (h' (p.1, []) (by simp))
  exact key u.length u (Nat.le_refl _) h

theorem match_both {code : List Nat} (hc : CodeOk code) (n : Nat) (r : Re) : MatchA code n r ∧ MatchB code n r := by
  have hsh := hc.short
  have noB : ∀ r : Re, r.isAlt = false → MatchB code n r := by
    intro r hr a k u K _ ha; rw [hr] at ha; cases ha
  have noA : ∀ r : Re, r.isAlt = true → MatchA code n r := by
    intro r hr a k u K _ ha; rw [hr] at ha; cases ha
  induction r with
  | bol =>
    refine ⟨?_, noB _ rfl⟩
    intro a k u K hw _ hat hk h
    simp only [asm, len] at hat hk h
    have hn : regnext code a = some (a + 3 + k) := hat.next_some (by omega) (by simp [off]; omega) (by simp [off]; omega) (by simp [off]; omega)
    obtain ⟨N, hN⟩ := ev_all h
    refine ⟨N + 1, fun f hf => ?_⟩
    obtain ⟨f, rfl⟩ : ∃ k, f = k + 1 := ⟨f - 1, by omega⟩
    have hN' := hN f (by omega)
    by_cases hu : u.length = n
    · have := hN' (u, []) (by simp [outs, hu])
      simp only at this
      simp [regmatch, hat.op, hn, hu, outs, firstRes_one, this]
    · simp [regmatch, hat.op, hu, outs, firstRes]
  | eol =>
    refine ⟨?_, noB _ rfl⟩
    intro a k u K hw _ hat hk h
    simp only [asm, len] at hat hk h
    have hn : regnext code a = some (a + 3 + k) := hat.next_some (by omega) (by simp [off]; omega) (by simp [off]; omega) (by simp [off]; omega)
    obtain ⟨N, hN⟩ := ev_all h
    refine ⟨N + 1, fun f hf => ?_⟩
    obtain ⟨f, rfl⟩ : ∃ k, f = k + 1 := ⟨f - 1, by omega⟩
    have hN' := hN f (by omega)
    by_cases hu : u = []
    · have := hN' (u, []) (by simp [outs, hu])
      simp only at this
      subst hu
      simp [regmatch, hat.op, hn, outs, firstRes_one, this]
    · simp [regmatch, hat.op, hu, outs, firstRes]
  | any =>
    refine ⟨?_, noB _ rfl⟩
    intro a k u K hw _ hat hk h
    have hat' := hat
    simp only [asm, len] at hat hk h
    have hn : regnext code a = some (a + 3 + k) := hat.next_some (by omega) (by simp [off]; omega) (by simp [off]; omega) (by simp [off]; omega)
    exact ev_char hw (Or.inl rfl) hat.op hat' hn h
  | set neg cs =>
    refine ⟨?_, noB _ rfl⟩
    intro a k u K hw _ hat hk h
    have hat' := hat
    simp only [asm, len] at hat hk h
    have hn : regnext code a = some (a + (cs.length + 4) + k) :=
      hat.left.left.next_some (by cases neg <;> simp) (by simp [off]; omega) (by simp [off]; omega) (by simp [off]; omega)
    exact ev_char hw (Or.inr ⟨neg, cs, rfl⟩) hat.left.left.op hat' hn h
  | lit s =>
    refine ⟨?_, noB _ rfl⟩
    intro a k u K hw _ hat hk h
    have hat' := hat
    simp only [asm, len] at hat hk h
    have hn : regnext code a = some (a + (s.length + 4) + k) :=
      hat.left.left.next_some (by omega) (by simp [off]; omega) (by simp [off]; omega) (by simp [off]; omega)
    exact ev_lit hw hat' hn h
  | nothing =>
    refine ⟨?_, noB _ rfl⟩
    intro a k u K hw _ hat hk h
    simp only [asm, len] at hat hk h
    have hn : regnext code a = some (a + 3 + k) := hat.next_some (by omega) (by simp [off]; omega) (by simp [off]; omega) (by simp [off]; omega)
    simp only [outs, firstRes_one]
    exact ev_next (Or.inl hat.op) hn (h (u, []) (by simp [outs]))
  | group no r ih =>
    refine ⟨?_, noB _ rfl⟩
    intro a k u K hw _ hat hk h
    simp only [asm, len] at hat hk h
    have hl := asmAlt_length hw.2.2.2 hw.2.2.1 (some 0) (some 0)
    have hA := hat.left.left
    have hR := hat.left.right
    have hC := hat.right
    simp only [List.length_append, node_length, hl] at hR hC
    have nA : regnext code a = some (a + 3) := hA.next_some (by omega) (by omega) (by omega) (by omega)
    have nC : regnext code (a + (3 + len r)) = some (a + (len r + 6) + k) :=
      hC.next_some (by omega) (by simp [off]; omega) (by simp [off]; omega) (by simp [off]; omega)
    simp only [outs, firstRes_group]
    refine ev_open hw.1 hw.2.1 hA.op nA ?_
    refine (ih.2 (a + 3) 0 u _ hw.2.2.2 hw.2.2.1 hR (by omega) ?_ ?_).2
    · rw [show a + 3 + len r + 0 = a + (3 + len r) by omega, hC.op]; simp; omega
    · intro p hp
      rw [show a + 3 + len r + 0 = a + (3 + len r) by omega]
      refine ev_close hw.1 hw.2.1 hC.op nC (h (p.1, .opn no (n - u.length) :: p.2 ++ [.cls no (n - p.1.length)]) ?_)
      simp only [outs, List.mem_map]
      exact ⟨p, hp, rfl⟩
  | star r ih =>
    refine ⟨?_, noB _ rfl⟩
    cases hs : r.simple with
    | false => exact match_star hc ih.1 hs
    | true =>
      intro a k u K hw _ hat hk h
      simp only [asm, len, hs, if_true] at hat hk h
      have hA := hat.left
      have hR := hat.right
      simp only [node_length] at hR
      have nA : regnext code a = some (a + (len r + 3) + k) :=
        hA.next_some (by omega) (by simp [off]; omega) (by simp [off]; omega) (by simp [off]; omega)
      have e : outs n (.star r) u = downs u 0 (u.takeWhile (charTest r)).length := rep_simple hs u
      rw [e] at h ⊢
      exact ev_loop hc (Or.inl ⟨rfl, rfl⟩) hA.op nA (by omega) hw.2.2 hs hR h
  | plus r ih =>
    refine ⟨?_, noB _ rfl⟩
    cases hs : r.simple with
    | false => exact match_plus hc ih.1 hs
    | true =>
      intro a k u K hw _ hat hk h
      simp only [asm, len, hs, if_true] at hat hk h
      have hA := hat.left
      have hR := hat.right
      simp only [node_length] at hR
      have nA : regnext code a = some (a + (len r + 3) + k) :=
        hA.next_some (by omega) (by simp [off]; omega) (by simp [off]; omega) (by simp [off]; omega)
      rw [plus_simple hs u] at h ⊢
      exact ev_loop hc (Or.inr ⟨rfl, rfl⟩) hA.op nA (by omega) hw.2.2 hs hR h
  | opt r ih =>
    refine ⟨?_, noB _ rfl⟩
    intro a k u K hw _ hat hk h
    have hl := asm_length hw.2 hw.1
    simp [asm, len] at hat hk
    have hA := hat.left
    have hR := hat.right.left
    have hC := hat.right.right.left
    have hD := hat.right.right.right
    simp only [node_length, hl] at hR hC hD
    have nA : regnext code a = some (a + 3 + len r) := hA.next_some (by omega) (by omega) (by omega) (by omega)
    have nC : regnext code (a + 3 + len r) = some (a + 3 + len r + 3) := hC.next_some (by omega) (by omega) (by omega) (by omega)
    have nD : regnext code (a + 3 + len r + 3) = some (a + (len r + 9) + k) :=
      hD.next_some (by omega) (by simp [off]; omega) (by simp [off]; omega) (by simp [off]; omega)
    simp only [outs, len] at h ⊢
    rw [firstRes_append, firstRes_one]
    refine ev_two hA.op nA hC.op nC (by rw [hD.op]; simp) (by omega) ?_ ?_
    · refine ih.1 (a + 3) 3 u K hw.2 hw.1 hR (by omega) ?_
      intro p hp
      exact ev_next (Or.inl hD.op) nD (h p (List.mem_append_left _ hp))
    · exact ev_next (Or.inl hD.op) nD (h (u, []) (by simp))
  | cat x b ihx ihb =>
    refine ⟨?_, noB _ rfl⟩
    intro a k u K hw _ hat hk h
    simp only [asm, len] at hat hk h
    have hX := hat.left
    have hB := hat.right
    rw [asm_length hw.2.2.1 hw.1] at hB
    simp only [outs] at h ⊢
    rw [firstRes_andThen]
    refine ihx.1 a 0 u _ hw.2.2.1 hw.1 hX (by omega) ?_
    intro p hp
    refine ihb.1 (a + len x) k p.1 K hw.2.2.2 hw.2.1 hB (by omega) ?_
    intro q hq
    have := h _ (mem_andThen.mpr ⟨p, hp, q, hq, rfl⟩)
    exact ev_cast this (by omega)
  | last b ih =>
    refine ⟨noA _ rfl, ?_⟩
    intro a k u K hw _ hat hk h6 h
    simp only [asmAlt, len] at hat hk h h6
    have hA := hat.left
    have hR := hat.right
    simp only [node_length] at hR
    have nA : regnext code a = some (a + (len b + 3) + k) :=
      hA.next_some (by omega) (by simp [off]; omega) (by simp [off]; omega) (by simp [off]; omega)
    simp only [outs] at h ⊢
    have hb := ih.1 (a + 3) k u K hw.2 hw.1 hR (by omega) (fun p hp => ev_cast (h p hp) (by omega))
    obtain ⟨N, hN⟩ := hb
    refine ⟨⟨N, fun f hf M hM => ?_⟩, ⟨N + 1, fun f hf => ?_⟩⟩
    · obtain ⟨M, rfl⟩ : ∃ j, M = j + 1 := ⟨M - 1, by simp only [len] at hM; omega⟩
      rw [tryBranches_succ, hN f hf]
      simp only [nA, h6, if_false, orElse_fail]
    · obtain ⟨f, rfl⟩ : ∃ k, f = k + 1 := ⟨f - 1, by omega⟩
      simp only [regmatch, hA.op, nA]
      simpa [h6] using hN f (by omega)
  | alt x b ihx ihb =>
    refine ⟨noA _ rfl, ?_⟩
    intro a k u K hw _ hat hk h6 h
    simp only [asmAlt, len] at hat hk h h6
    have hA := hat.left.left
    have hX := hat.left.right
    have hB := hat.right
    simp only [List.length_append, node_length, asm_length hw.2.2.1 hw.1, Option.map_some] at hX hB
    have nA : regnext code a = some (a + (3 + len x)) := hA.next_some (by omega) (by omega) (by omega) (by omega)
    have hb6 : code[a + (3 + len x)]? = some 6 := by
      have hba := hw.2.1
      cases b with
      | last y => simp only [asmAlt] at hB; exact hB.left.op
      | alt y z => simp only [asmAlt] at hB; exact hB.left.left.op
      | _ => simp [isAlt] at hba
    simp only [outs] at h ⊢
    have e : a + (3 + len x) + len b + k = a + (len x + 3 + len b) + k := by omega
    have h1 := ihx.1 (a + 3) (len b + k) u K hw.2.2.1 hw.1 hX (by omega)
      (fun p hp => ev_cast (h p (List.mem_append_left _ hp)) (by omega))
    obtain ⟨⟨N2, hN2⟩, -⟩ := ihb.2 (a + (3 + len x)) k u K hw.2.2.2 hw.2.1 hB (by omega) (by rw [e]; exact h6)
      (fun p hp => ev_cast (h p (List.mem_append_right _ hp)) (by omega))
    obtain ⟨N1, hN1⟩ := h1
    have main : ∀ f, N1 + N2 ≤ f → ∀ M, len x + 3 + len b ≤ M →
        tryBranches (regmatch code n f) code u M a = firstRes K (outs n x u ++ outs n b u) := by
      intro f hf M hM
      obtain ⟨M, rfl⟩ : ∃ j, M = j + 1 := ⟨M - 1, by omega⟩
      rw [tryBranches_succ, hN1 f (by omega), firstRes_append]
      simp only [nA, hb6, if_true]
      rw [hN2 f (by omega) M (by omega)]
    exact ⟨⟨N1 + N2, fun f hf M hM => main f hf M hM⟩, ev_branch hA.op nA hb6 ⟨N1 + N2, fun f hf => main f hf _ (by omega)⟩⟩

end Vital.Regex
