/-
  `regmatch` on the code of a tree takes the first way to match from which the rest of the program succeeds.
-/
import Verif.Regex.Spec
import Verif.Regex.Compile3

namespace Vital.Regex
open Re

/-- Record an event. -/
def Evt.note (e : Evt) (c : Caps) : Caps :=
  match e with
  | .opn no pos => c.setSt no pos
  | .cls no pos => c.setEn no pos

/-- Record the events before those that are already recorded. -/
def Res.after (tr : List Evt) : Res → Res
  | .ok v c => .ok v (tr.foldr Evt.note c)
  | r => r

/-- The result of the first way to match whose rest does not fail. -/
def firstRes (K : List Nat → Res) : List Out → Res
  | [] => .fail
  | p :: l =>
    match K p.1 with
    | .fail => firstRes K l
    | r => r.after p.2

theorem after_nil (r : Res) : r.after [] = r := by cases r <;> rfl
theorem after_append (a b : List Evt) (r : Res) : r.after (a ++ b) = (r.after b).after a := by
  cases r <;> simp [Res.after]
theorem after_fail {tr : List Evt} {r : Res} : r.after tr = .fail ↔ r = .fail := by cases r <;> simp [Res.after]

/-- Try one result, then the other. -/
def Res.orElse (r s : Res) : Res :=
  match r with
  | .fail => s
  | r => r

theorem firstRes_cons (K : List Nat → Res) (p : Out) (l : List Out) : firstRes K (p :: l) = ((K p.1).after p.2).orElse (firstRes K l) := by
  simp only [firstRes]
  cases K p.1 <;> rfl

theorem orElse_assoc (a b c : Res) : (a.orElse b).orElse c = a.orElse (b.orElse c) := by cases a <;> rfl
theorem orElse_fail (a : Res) : a.orElse .fail = a := by cases a <;> rfl
theorem fail_orElse (a : Res) : Res.fail.orElse a = a := rfl

theorem firstRes_append (K : List Nat → Res) (l m : List Out) : firstRes K (l ++ m) = (firstRes K l).orElse (firstRes K m) := by
  induction l with
  | nil => rfl
  | cons p l ih => rw [List.cons_append, firstRes_cons, firstRes_cons, ih, orElse_assoc]

theorem after_orElse (tr : List Evt) (a b : Res) : (a.orElse b).after tr = (a.after tr).orElse (b.after tr) := by cases a <;> rfl

theorem firstRes_map (K : List Nat → Res) (tr : List Evt) (l : List Out) :
    firstRes K (l.map (fun q => (q.1, tr ++ q.2))) = (firstRes K l).after tr := by
  induction l with
  | nil => rfl
  | cons p l ih => rw [List.map_cons, firstRes_cons, firstRes_cons, ih, after_orElse, after_append]

theorem firstRes_andThen (K : List Nat → Res) (l : List Out) (g : List Nat → List Out) :
    firstRes K (andThen l g) = firstRes (fun v => firstRes K (g v)) l := by
  induction l with
  | nil => rfl
  | cons p l ih =>
    have : andThen (p :: l) g = (g p.1).map (fun q => (q.1, p.2 ++ q.2)) ++ andThen l g := rfl
    rw [this, firstRes_append, firstRes_map, ih, firstRes_cons]

theorem firstRes_congr {K L : List Nat → Res} {l : List Out} (h : ∀ p ∈ l, K p.1 = L p.1) : firstRes K l = firstRes L l := by
  induction l with
  | nil => rfl
  | cons p l ih => rw [firstRes_cons, firstRes_cons, h p (by simp), ih (fun q hq => h q (by simp [hq]))]

theorem firstRes_one (K : List Nat → Res) (u : List Nat) : firstRes K [(u, [])] = K u := by
  rw [firstRes_cons, after_nil]; exact orElse_fail _

/-! ### With enough steps -/

/-- With enough steps the matcher at `a` has the result `R`. -/
def Ev (code : List Nat) (n a : Nat) (u : List Nat) (R : Res) : Prop := ∃ N, ∀ f, N ≤ f → regmatch code n f a u = R

/-- What holds of the programs here: links are short and the last byte is zero. -/
structure CodeOk (code : List Nat) : Prop where
  short : code.length < 65536
  zero : ∃ p, code = p ++ [0]

theorem CodeOk.cstr_some {code : List Nat} (h : CodeOk code) {a : Nat} (ha : a < code.length) : ∃ s, cstr code a = some s := by
  obtain ⟨p, rfl⟩ := h.zero
  have : 0 ∈ (p ++ [0]).drop a := by
    rw [List.drop_append_of_le_length (by simp at ha; omega)]; simp
  refine ⟨(List.drop a (p ++ [0])).takeWhile (fun b => b != 0), ?_⟩; simp only [cstr, this, if_true]

/-- The value of a C string starts with the byte at its address. -/
theorem cstr_head {code : List Nat} {a : Nat} {s : List Nat} (h : cstr code a = some s) {b : Nat} (hb : code[a]? = some b) (h0 : b ≠ 0) :
    s.headD 0 = b := by
  simp only [cstr] at h
  split at h
  · simp at h
    subst h
    have hd : code.drop a = b :: code.drop (a + 1) := by
      have hlt : a < code.length := by
        rcases Nat.lt_or_ge a code.length with h | h
        · exact h
        · rw [List.getElem?_eq_none h] at hb; cases hb
      rw [List.drop_eq_getElem_cons hlt]
      rw [List.getElem?_eq_getElem hlt] at hb
      simp at hb; rw [hb]
    have hb' : (b != 0) = true := by simpa using h0
    simp [hd, hb']
  · cases h

/-- A node that only goes on. -/
theorem ev_next {code : List Nat} {n a t : Nat} {u : List Nat} {R : Res} (hop : code[a]? = some 9 ∨ code[a]? = some 7)
    (hn : regnext code a = some t) (h : Ev code n t u R) : Ev code n a u R := by
  obtain ⟨N, hN⟩ := h
  refine ⟨N + 1, fun f hf => ?_⟩
  obtain ⟨f, rfl⟩ : ∃ k, f = k + 1 := ⟨f - 1, by omega⟩
  rcases hop with hop | hop <;> simp [regmatch, hop, hn, hN f (by omega)]

theorem At.next_some {code : List Nat} {a op d t : Nat} (h : At code a (node op d)) (h7 : op ≠ 7) (hd : 0 < d) (hb : d < 65536) (ht : t = a + d) :
    regnext code a = some t := by
  rw [h.next hb, ht]; simp [h7]; omega

/-- One round of the loop over alternatives. -/
theorem tryBranches_succ (go : Nat → List Nat → Res) (code : List Nat) (u : List Nat) (M a : Nat) :
    tryBranches go code u (M + 1) a = (go (a + 3) u).orElse
      (match regnext code a with
       | none => .fail
       | some t => if code[t]? = some 6 then tryBranches go code u M t else .fail) := by
  simp only [tryBranches]
  cases go (a + 3) u <;> rfl

theorem ev_branch {code : List Nat} {n a b : Nat} {u : List Nat} {R : Res} (h6 : code[a]? = some 6) (hn : regnext code a = some b)
    (hb6 : code[b]? = some 6) (h : ∃ N, ∀ f, N ≤ f → tryBranches (regmatch code n f) code u (code.length + 1) a = R) : Ev code n a u R := by
  obtain ⟨N, hN⟩ := h
  refine ⟨N + 1, fun f hf => ?_⟩
  obtain ⟨f, rfl⟩ : ∃ k, f = k + 1 := ⟨f - 1, by omega⟩
  simp only [regmatch, h6, hn]
  simpa [hb6] using hN f (by omega)

/-- The loop over alternatives, two of them. -/
theorem ev_two {code : List Nat} {n a b : Nat} {u : List Nat} {R S : Res} (h6 : code[a]? = some 6) (hn : regnext code a = some b)
    (hb6 : code[b]? = some 6) {c : Nat} (hc : regnext code b = some c) (hc6 : code[c]? ≠ some 6) (hlen : 1 ≤ code.length)
    (h1 : Ev code n (a + 3) u R) (h2 : Ev code n (b + 3) u S) : Ev code n a u (R.orElse S) := by
  obtain ⟨N1, hN1⟩ := h1
  obtain ⟨N2, hN2⟩ := h2
  refine ev_branch h6 hn hb6 ⟨N1 + N2, fun f hf => ?_⟩
  obtain ⟨M, hM⟩ : ∃ M, code.length + 1 = M + 2 := ⟨code.length - 1, by omega⟩
  rw [hM, tryBranches_succ]
  simp only [hn, hb6, if_true]
  rw [tryBranches_succ]
  simp only [hc, hc6, if_false, orElse_fail, hN1 f (by omega), hN2 f (by omega)]

/-! ### The fast loops -/

/-- The ends of the numbers of repetitions from `no` down to `min`. -/
def downs (u : List Nat) (min : Nat) : Nat → List Out
  | 0 => if min = 0 then [(u.drop 0, [])] else []
  | no + 1 => if min ≤ no + 1 then (u.drop (no + 1), []) :: downs u min no else []

theorem tryCounts_eq (go : List Nat → Res) (nextch min : Nat) (u : List Nat) : ∀ no,
    (∀ i, nextch ≠ 0 → (u.drop i).headD 0 ≠ nextch → go (u.drop i) = .fail) →
    tryCounts go nextch min u no = firstRes go (downs u min no) := by
  intro no hgo
  induction no with
  | zero =>
    simp only [tryCounts, downs]
    by_cases hm : min = 0
    · simp only [hm, Nat.le_refl, if_true, firstRes_one, List.drop_zero]
      by_cases hc : nextch = 0 ∨ u.headD 0 = nextch
      · rw [if_pos hc]
      · rw [if_neg hc]
        simp only [not_or] at hc
        have := hgo 0 hc.1 (by simpa using hc.2)
        simpa using this.symm
    · rw [if_neg (by omega), if_neg hm]; rfl
  | succ no ih =>
    simp only [tryCounts, downs]
    by_cases hm : min ≤ no + 1
    · simp only [hm, if_true, firstRes_cons, after_nil, ih]
      by_cases hc : nextch = 0 ∨ (u.drop (no + 1)).headD 0 = nextch
      · rw [if_pos hc]
        cases go (u.drop (no + 1)) <;> rfl
      · rw [if_neg hc]
        simp only [not_or] at hc
        rw [hgo (no + 1) hc.1 hc.2]; rfl
    · simp only [hm, if_false]; rfl

theorem downs_cons0 (c : Nat) (v : List Nat) (k : Nat) : downs (c :: v) 0 (k + 1) = downs v 0 k ++ [(c :: v, [])] := by
  induction k with
  | zero => simp [downs]
  | succ k ih =>
    rw [downs, ih]
    simp [downs]

theorem downs_cons1 (c : Nat) (v : List Nat) (k : Nat) : downs (c :: v) 1 (k + 1) = downs v 0 k := by
  induction k with
  | zero => simp [downs]
  | succ k ih =>
    rw [downs, ih]
    simp [downs]

/-- The characters that a simple tree matches. -/
def charTest : Re → Nat → Bool
  | .any, _ => true
  | .set neg cs, c => cs.contains c == !neg
  | .lit s, c => c == s.headD 0
  | _, _ => false

theorem outs_simple {n : Nat} {r : Re} (hs : r.simple = true) (u : List Nat) :
    outs n r u = match u with | [] => [] | c :: v => if charTest r c then [(v, [])] else [] := by
  cases r with
  | any => cases u <;> simp [outs, charTest]
  | set neg cs =>
    cases u with
    | nil => rfl
    | cons c v => simp only [outs, charTest, beq_iff_eq]
  | lit s =>
    simp only [simple, beq_iff_eq] at hs
    match s, hs with
    | [d], _ =>
      cases u with
      | nil => simp [outs, List.isPrefixOf]
      | cons c v =>
        by_cases h : d = c
        · subst h; simp [outs, charTest, List.isPrefixOf]
        · have h' : ¬ c = d := fun e => h e.symm
          simp [outs, charTest, List.isPrefixOf, h, h']
  | _ => simp [simple] at hs

theorem rep_simple {n : Nat} {r : Re} (hs : r.simple = true) : ∀ u : List Nat,
    rep (outs n r) u.length u = downs u 0 (u.takeWhile (charTest r)).length := by
  intro u
  induction u with
  | nil => simp [rep, downs]
  | cons c v ih =>
    simp only [List.length_cons, rep, outs_simple hs (c :: v)]
    by_cases h : charTest r c = true
    · simp only [h, if_true, List.takeWhile_cons, List.length_cons, downs_cons0]
      simp [andThen, ih]
    · simp [h, andThen, downs]

theorem plus_simple {n : Nat} {r : Re} (hs : r.simple = true) (u : List Nat) :
    outs n (.plus r) u = downs u 1 (u.takeWhile (charTest r)).length := by
  simp only [outs, outs_simple hs u]
  cases u with
  | nil => simp [andThen, downs]
  | cons c v =>
    by_cases h : charTest r c = true
    · simp only [h, if_true, List.takeWhile_cons, List.length_cons, downs_cons1, ← rep_simple (n := n) hs v]
      simp [andThen]
    · simp [h, andThen, downs]

theorem regrepeat_simple {code : List Nat} {a : Nat} {r : Re} {k : Option Nat} (hw : r.wf) (hs : r.simple = true) (h : At code a (asm r k)) (u : List Nat) :
    regrepeat code a u = some (u.takeWhile (charTest r)).length := by
  cases r with
  | any =>
    simp only [asm] at h
    have : ∀ u : List Nat, u.takeWhile (charTest .any) = u := by
      intro u; induction u with
      | nil => rfl
      | cons x u ih => rw [List.takeWhile_cons, ih]; rfl
    simp [regrepeat, h.op, this]
  | set neg cs =>
    simp only [asm] at h
    have hc : cstr code (a + 3) = some cs := cstr_of (by rw [List.append_assoc] at h; exact h.right) hw
    cases neg
    · simp only [Bool.false_eq_true, if_false] at h
      simp only [regrepeat, h.left.left.op, hc]
      have : (fun x => cs.contains x) = charTest (.set false cs) := by funext x; simp [charTest]
      rw [← this]; simp
    · simp only [if_true] at h
      simp only [regrepeat, h.left.left.op, hc]
      have : (fun x => !cs.contains x) = charTest (.set true cs) := by funext x; simp [charTest]
      rw [← this]; simp
  | lit s =>
    simp only [simple, beq_iff_eq] at hs
    simp only [asm] at h
    match s, hs with
    | [d], _ =>
      have h3 := h.get 3 (by simp [node])
      simp [node] at h3
      simp only [regrepeat, h.left.left.op, h3]
      have : (fun x => x == d) = charTest (.lit [d]) := by funext x; simp [charTest]
      simp [this]
  | _ => simp [simple] at hs

/-- The same bound for all ends. -/
theorem ev_all {code : List Nat} {n t : Nat} {K : List Nat → Res} {l : List Out} (h : ∀ p ∈ l, Ev code n t p.1 (K p.1)) :
    ∃ N, ∀ f, N ≤ f → ∀ p ∈ l, regmatch code n f t p.1 = K p.1 := by
  induction l with
  | nil => exact ⟨0, by simp⟩
  | cons p l ih =>
    obtain ⟨N1, h1⟩ := h p (by simp)
    obtain ⟨N2, h2⟩ := ih (fun q hq => h q (by simp [hq]))
    refine ⟨N1 + N2, fun f hf q hq => ?_⟩
    simp only [List.mem_cons] at hq
    rcases hq with rfl | hq
    · exact h1 f (by omega)
    · exact h2 f (by omega) q hq

/-- Looking at the next literal never changes the result. -/
theorem prune {code : List Nat} (hc : CodeOk code) {n t f : Nat} (h8 : code[t]? = some 8) (ht : t + 3 < code.length) {w : List Nat}
    (h0 : code[t + 3]?.getD 0 ≠ 0) (hw : w.headD 0 ≠ code[t + 3]?.getD 0) : regmatch code n (f + 1) t w = .fail := by
  obtain ⟨s, hs⟩ := hc.cstr_some ht
  have hb : code[t + 3]? = some (code[t + 3]?.getD 0) := by rw [List.getElem?_eq_getElem ht]; rfl
  have hh := cstr_head hs hb h0
  simp only [regmatch, h8, hs]
  have : s.headD 0 ≠ w.headD 0 := by rw [hh]; exact fun e => hw e.symm
  rw [if_neg (by omega), if_neg (by omega), if_neg (by omega), if_pos trivial, if_pos this]

theorem ev_loop {code : List Nat} (hc : CodeOk code) {n a t min op : Nat} {u : List Nat} {r : Re} {K : List Nat → Res}
    (hop : (op = 10 ∧ min = 0) ∨ (op = 11 ∧ min = 1)) (ho : code[a]? = some op)
    (hn : regnext code a = some t) (ht : t < code.length) (hw : r.wf) (hs : r.simple = true) {k : Option Nat} (hat : At code (a + 3) (asm r k))
    (h : ∀ p ∈ downs u min (u.takeWhile (charTest r)).length, Ev code n t p.1 (K p.1)) :
    Ev code n a u (firstRes K (downs u min (u.takeWhile (charTest r)).length)) := by
  obtain ⟨N, hN⟩ := ev_all h
  refine ⟨N + 2, fun f hf => ?_⟩
  obtain ⟨g, rfl⟩ : ∃ k, f = k + 1 := ⟨f - 1, by omega⟩
  have hto : ∃ o, code[t]? = some o := ⟨_, List.getElem?_eq_getElem ht⟩
  obtain ⟨o, hto⟩ := hto
  have key : tryCounts (regmatch code n g t) (if o = 8 then code[t + 3]?.getD 0 else 0) min u (u.takeWhile (charTest r)).length =
      firstRes K (downs u min (u.takeWhile (charTest r)).length) := by
    rw [tryCounts_eq]
    · exact firstRes_congr (fun p hp => hN g (by omega) p hp)
    · intro i h0 hne
      split at h0
      · rename_i h8
        subst h8
        rw [if_pos rfl] at hne
        have hlt : t + 3 < code.length := by
          rcases Nat.lt_or_ge (t + 3) code.length with h | h
          · exact h
          · rw [List.getElem?_eq_none h] at h0; exact absurd rfl h0
        obtain ⟨f, rfl⟩ : ∃ k, g = k + 1 := ⟨g - 1, by omega⟩
        exact prune hc hto hlt h0 hne
      · exact absurd rfl h0
  simp only [regmatch]
  simp only [ho, hn, hto, regrepeat_simple hw hs hat u]
  rcases hop with ⟨rfl, rfl⟩ | ⟨rfl, rfl⟩
  · simpa using key
  · simpa using key

end Vital.Regex
