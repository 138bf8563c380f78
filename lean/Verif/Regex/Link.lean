/-
  The regular expressions used by the configuration code do what the scanners of the models Config/Expand.lean and Config/Parser.lean do.
  Property C123.
-/
import Verif.Regex.Object
import Verif.Config.ParserLex

namespace Vital.Regex
open Re Vital.Expand Vital.Parser

/-- The text of a string as bytes. -/
def codes (s : Str) : List Nat := s.map Char.toNat

theorem toNat_inj {a b : Char} (h : a.toNat = b.toNat) : a = b := by
  rw [← Char.ofNat_toNat a, ← Char.ofNat_toNat b, h]

theorem toNat_mem {c : Char} {l : Str} : c.toNat ∈ l.map Char.toNat ↔ c ∈ l := by
  simp only [List.mem_map]
  exact ⟨fun ⟨d, h1, h2⟩ => by rw [← toNat_inj h2]; exact h1, fun h => ⟨c, h, rfl⟩⟩

theorem set_link {p : Char → Bool} {l : Str} (cs : List Nat) (hp : ∀ c, p c = true ↔ c ∈ l)
    (h1 : ∀ n ∈ cs, n ∈ l.map Char.toNat) (h2 : ∀ n ∈ l.map Char.toNat, n ∈ cs) (c : Char) : charTest (.set false cs) c.toNat = p c := by
  rw [Bool.eq_iff_iff, hp]
  simp only [charTest, Bool.not_false, beq_iff_eq, List.contains_iff_mem]
  exact ⟨fun h => toNat_mem.mp (h1 _ h), fun h => h2 _ (toNat_mem.mpr h)⟩

theorem takeWhile_link {p : Char → Bool} {q : Nat → Bool} (h : ∀ c : Char, q c.toNat = p c) (s : Str) : (codes s).takeWhile q = codes (s.takeWhile p) := by
  induction s with
  | nil => rfl
  | cons c s ih =>
    simp only [codes, List.map_cons, List.takeWhile_cons, h]
    split
    · simp only [List.map_cons]; rw [← codes, ih]; rfl
    · rfl

theorem dropWhile_link {p : Char → Bool} {q : Nat → Bool} (h : ∀ c : Char, q c.toNat = p c) (s : Str) : (codes s).dropWhile q = codes (s.dropWhile p) := by
  induction s with
  | nil => rfl
  | cons c s ih =>
    simp only [codes, List.map_cons, List.dropWhile_cons, h]
    split
    · rw [← codes, ih]; rfl
    · rfl

theorem drop_run (q : Nat → Bool) (u : List Nat) : u.drop (u.takeWhile q).length = u.dropWhile q := by
  induction u with
  | nil => rfl
  | cons c u ih =>
    simp only [List.takeWhile_cons, List.dropWhile_cons]
    split
    · simpa using ih
    · rfl

/-- Before the end of a run, the text goes on with a character of the run. -/
theorem run_head {q : Nat → Bool} : ∀ {u : List Nat} {j : Nat}, j < (u.takeWhile q).length → ∃ c v, u.drop j = c :: v ∧ q c = true := by
  intro u
  induction u with
  | nil => intro j h; simp at h
  | cons c u ih =>
    intro j h
    by_cases hc : q c = true
    · cases j with
      | zero => exact ⟨c, u, rfl, hc⟩
      | succ j => simp only [List.takeWhile_cons, hc, if_true, List.length_cons] at h; simpa using ih (by omega)
    · simp [hc] at h

theorem mem_downs {u : List Nat} {m k : Nat} {x : Out} (h : x ∈ downs u m k) : ∃ j, m ≤ j ∧ j ≤ k ∧ x = (u.drop j, []) := by
  induction k with
  | zero =>
    simp only [downs] at h
    split at h
    · rename_i hm; simp at h; exact ⟨0, by omega, by omega, by simp [h]⟩
    · cases h
  | succ k ih =>
    simp only [downs] at h
    split at h
    · rename_i hm
      rcases List.mem_cons.mp h with rfl | h
      · exact ⟨k + 1, hm, Nat.le_refl _, rfl⟩
      · obtain ⟨j, h1, h2, h3⟩ := ih h; exact ⟨j, h1, by omega, h3⟩
    · cases h

/-- The longest run first; the others stop within the run. -/
theorem downs_run {q : Nat → Bool} {u : List Nat} {m : Nat} (h : m ≤ (u.takeWhile q).length) :
    ∃ L, downs u m (u.takeWhile q).length = (u.dropWhile q, []) :: L ∧ ∀ x ∈ L, ∃ c v, x.1 = c :: v ∧ q c = true := by
  rw [← drop_run]
  generalize hk : (u.takeWhile q).length = k at h
  cases k with
  | zero => refine ⟨[], by simp [downs]; omega, by simp⟩
  | succ k =>
    refine ⟨downs u m k, by simp [downs, h], fun x hx => ?_⟩
    obtain ⟨j, h1, h2, rfl⟩ := mem_downs hx
    exact run_head (by omega)

theorem downs_few {u : List Nat} {m k : Nat} (h : k < m) : downs u m k = [] := by
  cases k with
  | zero => simp [downs]; omega
  | succ k => simp [downs]; omega

theorem andThen_head {x : Out} {L : List Out} {g : List Nat → List Out} (h : ∀ y ∈ L, g y.1 = []) :
    andThen (x :: L) g = (g x.1).map (fun q => (q.1, x.2 ++ q.2)) := by
  simp only [andThen, List.flatMap_cons]
  have : L.flatMap (fun p => (g p.1).map (fun q => (q.1, p.2 ++ q.2))) = [] := by
    rw [List.flatMap_eq_nil_iff]; intro y hy; simp [h y hy]
  rw [this, List.append_nil]

theorem andThen_nil (g : List Nat → List Out) : andThen [] g = [] := rfl

theorem andThen_single (x : Out) (g : List Nat → List Out) : andThen [x] g = (g x.1).map (fun q => (q.1, x.2 ++ q.2)) :=
  andThen_head (by simp)

theorem outs_lit1 (n c : Nat) (u : List Nat) : outs n (.lit [c]) u = match u with | [] => [] | d :: v => if c = d then [(v, [])] else [] := by
  cases u with
  | nil => simp [outs]
  | cons d v => by_cases h : c = d <;> simp [outs, h]

/-! ### The pattern of `token_expander` -/

-- models: vital/config/token_expander.cxx:89
def tokenPattern : String := "\\$([a-zA-Z][a-zA-Z0-9_]*)\\{([a-zA-Z0-9._:]+)?\\}"

def alphaC : List Nat := codes letters
def identC : List Nat := codes typeChars
def nameC : List Nat := codes nameChars

def tokenRe : Re :=
  .last (.cat (.cat (.cat (.cat (.lit [36]) (.group 1 (.last (.cat (.set false alphaC) (.star (.set false identC)))))) (.lit [123]))
    (.opt (.group 2 (.last (.plus (.set false nameC)))))) (.lit [125]))

theorem token_parse : parse (bytes tokenPattern) = some tokenRe := by decide +kernel

theorem alpha_test (c : Char) : charTest (.set false alphaC) c.toNat = isAlpha c :=
  set_link alphaC isAlpha_iff (fun _ h => h) (fun _ h => h) c
theorem ident_test (c : Char) : charTest (.set false identC) c.toNat = isIdent c :=
  set_link identC isIdent_iff (fun _ h => h) (fun _ h => h) c
theorem name_test (c : Char) : charTest (.set false nameC) c.toNat = isName c :=
  set_link nameC isName_iff (fun _ h => h) (fun _ h => h) c

/-- The trace of the groups of a token that starts at a position. -/
def tokenTrace (i : Nat) (ty nm : Str) : List Evt :=
  [.opn 1 (i + 1), .cls 1 (i + 1 + ty.length)] ++
    (if nm = [] then [] else [.opn 2 (i + 2 + ty.length), .cls 2 (i + 2 + ty.length + nm.length)])

theorem codes_length (s : Str) : (codes s).length = s.length := by simp [codes]

theorem codes_nil_iff {s : Str} : codes s = [] ↔ s = [] := by simp [codes]

theorem codes_cons {s : Str} {k : Char} {v : List Nat} (h : codes s = k.toNat :: v) : ∃ r, s = k :: r ∧ v = codes r := by
  cases s with
  | nil => simp [codes] at h
  | cons c s =>
    simp only [codes, List.map_cons, List.cons.injEq] at h
    exact ⟨s, by rw [toNat_inj h.1], h.2.symm⟩

/-- A run of a class and then a character not in the class. -/
theorem run_then {q : Nat → Bool} {k n m : Nat} (hq : q k = false) (u : List Nat) :
    andThen (downs u m (u.takeWhile q).length) (outs n (.lit [k])) =
      match u.dropWhile q with
      | [] => []
      | d :: v => if m ≤ (u.takeWhile q).length ∧ k = d then [(v, [])] else [] := by
  by_cases hm : m ≤ (u.takeWhile q).length
  · obtain ⟨L, h1, h2⟩ := downs_run hm
    rw [h1, andThen_head]
    · simp only [outs_lit1, hm, true_and]
      cases u.dropWhile q with
      | nil => rfl
      | cons d v => simp only; split <;> simp
    · intro y hy
      obtain ⟨c, v, hc, hqc⟩ := h2 y hy
      rw [outs_lit1, hc]
      simp only
      rw [if_neg]; rintro rfl; rw [hq] at hqc; cases hqc
  · rw [downs_few (by omega)]
    simp only [andThen_nil, hm, false_and, if_false]
    cases u.dropWhile q <;> rfl

theorem outs_cat (n : Nat) (a b : Re) (u : List Nat) : outs n (.cat a b) u = andThen (outs n a u) (outs n b) := rfl

theorem lit_tail {q : Nat → Bool} {k n : Nat} (hq : q k = false) {L : List Out} (h : ∀ x ∈ L, ∃ c v, x.1 = c :: v ∧ q c = true) :
    ∀ y ∈ L, outs n (.lit [k]) y.1 = [] := by
  intro y hy
  obtain ⟨c, v, hc, hqc⟩ := h y hy
  rw [outs_lit1, hc]
  simp only
  rw [if_neg]; rintro rfl; rw [hq] at hqc; cases hqc

/-- Group 1 on a letter and the rest. -/
theorem outs_group1 (n : Nat) (a : Char) (r : Str) (ha : isAlpha a = true) :
    ∃ L, outs n (.group 1 (.last (.cat (.set false alphaC) (.star (.set false identC))))) (codes (a :: r)) =
        (codes (r.dropWhile isIdent), [.opn 1 (n - (r.length + 1)), .cls 1 (n - (r.dropWhile isIdent).length)]) :: L ∧
      ∀ x ∈ L, ∃ c v, x.1 = c :: v ∧ charTest (.set false identC) c = true := by
  have hg : outs n (.group 1 (.last (.cat (.set false alphaC) (.star (.set false identC))))) (codes (a :: r)) =
      (andThen (outs n (.set false alphaC) (codes (a :: r))) (outs n (.star (.set false identC)))).map
        (fun p => (p.1, .opn 1 (n - (codes (a :: r)).length) :: p.2 ++ [.cls 1 (n - p.1.length)])) := rfl
  have h1 : outs n (.set false alphaC) (codes (a :: r)) = [(codes r, [])] := by
    rw [outs_simple rfl]; simp only [codes, List.map_cons, alpha_test, ha, if_true]
  have h2 : outs n (.star (.set false identC)) (codes r) = downs (codes r) 0 ((codes r).takeWhile (charTest (.set false identC))).length := by
    simp only [outs]; exact rep_simple (n := n) (r := .set false identC) (by rfl) (codes r)
  obtain ⟨L, g1, g2⟩ := downs_run (q := charTest (.set false identC)) (u := codes r) (m := 0) (by omega)
  rw [hg, h1, andThen_single]
  simp only [List.nil_append, h2, g1]
  rw [dropWhile_link ident_test]
  refine ⟨_, by simp only [List.map_cons, List.nil_append, List.cons_append, codes_length, List.length_cons]; rfl, ?_⟩
  intro x hx
  simp only [List.mem_map] at hx
  obtain ⟨y, ⟨z, hz, rfl⟩, rfl⟩ := hx
  exact g2 z hz

/-- The optional group 2. -/
theorem outs_group2 (n : Nat) (t : Str) :
    ∃ L, outs n (.opt (.group 2 (.last (.plus (.set false nameC))))) (codes t) =
        (codes (t.dropWhile isName), if t.takeWhile isName = [] then [] else [.opn 2 (n - t.length), .cls 2 (n - (t.dropWhile isName).length)]) :: L ∧
      ∀ x ∈ L, ∃ c v, x.1 = c :: v ∧ charTest (.set false nameC) c = true := by
  have hg : outs n (.opt (.group 2 (.last (.plus (.set false nameC))))) (codes t) =
      (outs n (.plus (.set false nameC)) (codes t)).map (fun p => (p.1, .opn 2 (n - (codes t).length) :: p.2 ++ [.cls 2 (n - p.1.length)])) ++ [(codes t, [])] := rfl
  rw [hg, plus_simple (r := .set false nameC) (by rfl)]
  have htw := takeWhile_link name_test t
  have hdw := dropWhile_link name_test t
  by_cases hm : t.takeWhile isName = []
  · have h0 : ((codes t).takeWhile (charTest (.set false nameC))).length = 0 := by rw [htw, hm]; rfl
    rw [h0, downs_few (by omega)]
    have : t.dropWhile isName = t := by
      have := List.takeWhile_append_dropWhile (p := isName) (l := t)
      rw [hm] at this; simpa using this
    exact ⟨[], by simp [hm, this], by simp⟩
  · have h1 : 1 ≤ ((codes t).takeWhile (charTest (.set false nameC))).length := by
      rw [htw, codes_length]
      cases h : t.takeWhile isName with
      | nil => exact absurd h hm
      | cons _ _ => simp
    obtain ⟨L, g1, g2⟩ := downs_run h1
    rw [g1, hdw]
    refine ⟨_, by simp only [List.map_cons, List.nil_append, List.cons_append, codes_length, if_neg hm]; rfl, ?_⟩
    intro x hx
    rcases List.mem_append.mp hx with hx | hx
    · obtain ⟨z, hz, rfl⟩ := List.mem_map.mp hx
      exact g2 z hz
    · simp at hx; subst hx
      exact run_head (u := codes t) (j := 0) h1

/-- The ways to match a token at the start of a text: at most one, and it is what the scanner gives. -/
theorem token_outs (n : Nat) (s : Str) (hn : s.length ≤ n) :
    outs n tokenRe (codes s) =
      match scanToken s with
      | none => []
      | some (ty, nm, rest) => [(codes rest, tokenTrace (n - s.length) ty nm)] := by
  have hnone : ∀ t : Str, (∀ a r, t ≠ '$' :: a :: r) → scanToken t = none := by
    intro t ht; unfold scanToken; split
    · exact absurd rfl (ht _ _)
    · rfl
  rw [show outs n tokenRe (codes s) =
      andThen (andThen (andThen (andThen (outs n (.lit [36]) (codes s)) (outs n (.group 1 (.last (.cat (.set false alphaC) (.star (.set false identC))))))) (outs n (.lit [123])))
        (outs n (.opt (.group 2 (.last (.plus (.set false nameC))))))) (outs n (.lit [125])) from rfl]
  rw [outs_lit1]
  cases s with
  | nil => rfl
  | cons d s =>
    rcases Classical.em (d = '$') with hd | hd
    · subst hd
      simp only [codes, List.map_cons]
      rw [if_pos (by decide), ← codes, andThen_single]
      simp only [List.nil_append]
      cases s with
      | nil => rfl
      | cons a r =>
        rcases Bool.eq_false_or_eq_true (isAlpha a) with ha | ha
        · obtain ⟨L, g1, g2⟩ := outs_group1 n a r ha
          rw [g1]
          simp only [List.map_cons, List.map_map]
          rw [andThen_head (lit_tail (q := charTest (.set false identC)) (by decide +kernel) (by
            intro x hx
            simp only [List.mem_map] at hx
            obtain ⟨y, hy, rfl⟩ := hx
            exact g2 y hy))]
          rw [outs_lit1]
          unfold scanToken
          simp only [ha, if_true]
          cases hr : r.dropWhile isIdent with
          | nil => rfl
          | cons b r2 =>
            simp only [codes, List.map_cons]
            rcases Classical.em (b = '{') with hb | hb
            · subst hb
              rw [if_pos (by decide), ← codes]
              simp only [List.map_cons, List.map_nil, List.append_nil]
              rw [andThen_single]
              obtain ⟨L2, k1, k2⟩ := outs_group2 n r2
              generalize hT : (if r2.takeWhile isName = [] then [] else [Evt.opn 2 (n - r2.length), Evt.cls 2 (n - (r2.dropWhile isName).length)]) = T at k1
              rw [k1]
              simp only [List.map_cons]
              rw [andThen_head (lit_tail (q := charTest (.set false nameC)) (by decide +kernel) (by
                intro x hx
                simp only [List.mem_map] at hx
                obtain ⟨y, hy, rfl⟩ := hx
                exact k2 y hy))]
              rw [outs_lit1]
              have l1 : r.length = (r.takeWhile isIdent).length + (r2.length + 1) := by
                have := congrArg List.length (List.takeWhile_append_dropWhile (p := isIdent) (l := r))
                rw [List.length_append, hr] at this; simpa using this.symm
              cases hq : r2.dropWhile isName with
              | nil => rfl
              | cons e rest =>
                simp only [codes, List.map_cons]
                have l2 : r2.length = (r2.takeWhile isName).length + (rest.length + 1) := by
                  have := congrArg List.length (List.takeWhile_append_dropWhile (p := isName) (l := r2))
                  rw [List.length_append, hq] at this; simpa using this.symm
                rcases Classical.em (e = '}') with he | he
                · subst he
                  rw [if_pos (by decide), ← hT, hq]
                  simp only [List.map_cons, List.map_nil, List.append_nil, List.length_cons, List.cons.injEq, Prod.mk.injEq, and_true, true_and]
                  simp only [List.length_cons] at hn
                  simp only [tokenTrace, List.length_cons]
                  have e1 : n - (r.length + 1 + 1) + 1 = n - (r.length + 1) := by omega
                  have e2 : n - (r.length + 1 + 1) + 1 + ((r.takeWhile isIdent).length + 1) = n - (r2.length + 1) := by omega
                  have e3 : n - (r.length + 1 + 1) + 2 + ((r.takeWhile isIdent).length + 1) = n - r2.length := by omega
                  have e4 : n - (r.length + 1 + 1) + 2 + ((r.takeWhile isIdent).length + 1) + (r2.takeWhile isName).length = n - (rest.length + 1) := by omega
                  rw [e4, e3, e2, e1]
                · rw [if_neg (by intro h; exact he (toNat_inj (a := e) (b := '}') h.symm))]
                  split
                  · rfl
                  · rename_i heq
                    split at heq
                    · rename_i hh; cases hh; exact absurd rfl he
                    · cases heq
            · rw [if_neg (by intro h; exact hb (toNat_inj (a := b) (b := '{') h.symm))]
              split
              · rfl
              · rename_i heq
                split at heq
                · rename_i hh; cases hh; exact absurd rfl hb
                · cases heq
        · have : outs n (.group 1 (.last (.cat (.set false alphaC) (.star (.set false identC))))) (codes (a :: r)) =
            (andThen (outs n (.set false alphaC) (codes (a :: r))) (outs n (.star (.set false identC)))).map
              (fun p => (p.1, .opn 1 (n - (codes (a :: r)).length) :: p.2 ++ [.cls 1 (n - p.1.length)])) := rfl
          rw [this, outs_simple (by rfl)]
          simp only [codes, List.map_cons, alpha_test, ha]
          unfold scanToken
          simp only [ha]
          rfl
    · rw [hnone (d :: s) (by intro a r h; cases h; exact hd rfl)]
      simp only [codes, List.map_cons]
      rw [if_neg (by intro h; exact hd (toNat_inj (a := d) (b := '$') h.symm))]
      rfl

theorem token_search (n : Nat) (s : Str) (hn : s.length ≤ n) :
    search n tokenRe (codes s) =
      match findToken s with
      | none => none
      | some (pre, ty, nm, rest) => some (codes (s.drop pre.length), (codes rest, tokenTrace (n - s.length + pre.length) ty nm)) := by
  induction s with
  | nil => simp [codes, search, findToken]; have := token_outs n [] (by simp); simp [codes, scanToken] at this; exact this
  | cons a s ih =>
    have h1 := token_outs n (a :: s) hn
    have h2 := ih (by simp at hn; omega)
    simp only [codes, List.map_cons] at h1 h2 ⊢
    simp only [search, h1]
    unfold findToken
    cases hs : scanToken (a :: s) with
    | some v => obtain ⟨ty, nm, rest⟩ := v; simp
    | none =>
      simp only [List.head?_nil, h2]
      cases hf : findToken s with
      | none => rfl
      | some v =>
        obtain ⟨pre, ty, nm, rest⟩ := v
        simp only [List.length_cons, List.drop_succ_cons]
        simp only [List.length_cons] at hn
        rw [show n - s.length + pre.length = n - (s.length + 1) + (pre.length + 1) by omega]

/-- A compiled expression finds what the search for its tree gives. -/
theorem finds_search {exp : List Nat} {r : Re} (h0 : 0 ∉ exp) (hr : parse exp = some r) (hl : len r + 4 < 32767) :
    ∃ p, compile exp = .ok p ∧ ∀ text, Finds p text (foundOf text.length (search text.length r text)) := by
  obtain ⟨hw, ha⟩ := parse_ok h0 hr
  refine ⟨optOf r, ?_, fun text => find_eq hw ha (by omega) text⟩
  rw [compile_eq exp h0, hr]
  simp only
  rw [if_neg (by omega)]

/-- The part of a string between two positions. -/
def slice (s : Str) (i j : Nat) : Str := (s.drop i).take (j - i)

theorem slice_mid (p x q : Str) (i j : Nat) (hi : i = p.length) (hj : j = p.length + x.length) : slice (p ++ (x ++ q)) i j = x := by
  subst hi hj
  simp [slice]

theorem tokenTrace_st1 (i : Nat) (ty nm : Str) : (capsOf (tokenTrace i ty nm)).st 1 = some (i + 1) := by
  by_cases h : nm = [] <;> simp [tokenTrace, h, capsOf, Evt.note, Caps.setSt, Caps.setEn, Caps.none]

theorem tokenTrace_en1 (i : Nat) (ty nm : Str) : (capsOf (tokenTrace i ty nm)).en 1 = some (i + 1 + ty.length) := by
  by_cases h : nm = [] <;> simp [tokenTrace, h, capsOf, Evt.note, Caps.setSt, Caps.setEn, Caps.none]

/-- C123: the pattern of `expand_token` is accepted; its `find` fails exactly when the scanner of the model of `expand_token` finds no token;
    otherwise `start(0)`, `end(0)`, `match(1)`, `match(2)` are the position of the token, its type and its name (unset if there is none). -/
theorem C123_token : ∃ p, compile (bytes tokenPattern) = .ok p ∧ ∀ s : Str,
    (findToken s = none → Finds p (codes s) .no) ∧
    ∀ pre ty nm rest, findToken s = some (pre, ty, nm, rest) → ∃ f, Finds p (codes s) (.yes f) ∧
      slice s 0 f.s = pre ∧ s.drop f.e = rest ∧
      (∃ a b, f.caps.st 1 = some a ∧ f.caps.en 1 = some b ∧ slice s a b = ty) ∧
      (nm = [] → f.caps.st 2 = none ∧ f.caps.en 2 = none) ∧
      (nm ≠ [] → ∃ a b, f.caps.st 2 = some a ∧ f.caps.en 2 = some b ∧ slice s a b = nm) := by
  obtain ⟨p, hp, hf⟩ := finds_search (exp := bytes tokenPattern) (by decide +kernel) token_parse (by decide +kernel)
  refine ⟨p, hp, fun s => ?_⟩
  have h := hf (codes s)
  rw [codes_length, token_search _ _ (Nat.le_refl _)] at h
  refine ⟨fun hn => by rw [hn] at h; exact h, ?_⟩
  intro pre ty nm rest hs
  rw [hs] at h
  simp only [foundOf, codes_length, List.length_drop] at h
  obtain ⟨hs1, ht, -⟩ := find_some hs
  have htl : s = pre ++ ('$' :: ty ++ '{' :: nm ++ '}' :: rest) := by
    obtain ⟨h1, -, -⟩ := hs1
    rw [ht, h1]; simp
  have hlen : s.length = pre.length + (ty.length + nm.length + rest.length + 3) := by rw [htl]; simp; omega
  refine ⟨_, h, ?_, ?_, ?_, ?_, ?_⟩
  · simp only [slice]
    rw [show s.length - (s.length - pre.length) - 0 = pre.length by omega, htl]; simp
  · simp only
    rw [show s.length - rest.length = (pre ++ ('$' :: ty ++ '{' :: nm ++ ['}'])).length by simp; omega, htl,
      show pre ++ ('$' :: ty ++ '{' :: nm ++ '}' :: rest) = (pre ++ ('$' :: ty ++ '{' :: nm ++ ['}'])) ++ rest by simp]
    exact List.drop_left
  · refine ⟨pre.length + 1, pre.length + 1 + ty.length, ?_, ?_, ?_⟩
    · simp [tokenTrace_st1]
    · simp [tokenTrace_en1]
    · rw [htl, show pre ++ ('$' :: ty ++ '{' :: nm ++ '}' :: rest) = (pre ++ ['$']) ++ (ty ++ ('{' :: nm ++ '}' :: rest)) by simp]
      exact slice_mid _ _ _ _ _ (by simp) (by simp)
  · intro hn; subst hn
    constructor <;> simp [tokenTrace, capsOf, Evt.note, Caps.setSt, Caps.setEn, Caps.none]
  · intro hn
    refine ⟨pre.length + 2 + ty.length, pre.length + 2 + ty.length + nm.length, ?_, ?_, ?_⟩
    · simp [tokenTrace, hn, capsOf, Evt.note, Caps.setSt, Caps.setEn, Caps.none]
    · simp [tokenTrace, hn, capsOf, Evt.note, Caps.setSt, Caps.setEn, Caps.none]
    · rw [htl, show pre ++ ('$' :: ty ++ '{' :: nm ++ '}' :: rest) = (pre ++ '$' :: ty ++ ['{']) ++ (nm ++ '}' :: rest) by simp]
      exact slice_mid _ _ _ _ _ (by simp; omega) (by simp; omega)

/-! ### The patterns of `config_parser` -/

-- models: vital/config/config_parser.cxx:540-541
def wordPattern : String := "^[a-zA-Z][-a-zA-Z0-9.:/_]+[-a-zA-Z0-9./_]"
def flagPattern : String := "^\\[[a-zA-Z,]+\\]"

def wordEnd : Str := c!"-" ++ letters ++ c!"0123456789./_"
def midC : List Nat := codes (c!"-" ++ letters ++ c!"0123456789.:/_")
def endC : List Nat := codes wordEnd
def flagC : List Nat := codes (letters ++ c!",")

def wordRe : Re := .last (.cat (.cat (.cat .bol (.set false alphaC)) (.plus (.set false midC))) (.set false endC))
def flagRe : Re := .last (.cat (.cat (.cat .bol (.lit [91])) (.plus (.set false flagC))) (.lit [93]))

theorem word_parse : parse (bytes wordPattern) = some wordRe := by decide +kernel
theorem flag_parse : parse (bytes flagPattern) = some flagRe := by decide +kernel

theorem mid_test (c : Char) : charTest (.set false midC) c.toNat = isWordMid c :=
  set_link midC isWordMid_iff (by decide +kernel) (by decide +kernel) c
theorem flag_test (c : Char) : charTest (.set false flagC) c.toNat = isFlagChar c :=
  set_link flagC isFlagChar_iff (fun _ h => h) (fun _ h => h) c

theorem end_test (c : Char) : charTest (.set false endC) c.toNat = (isWordMid c && c != ':') := by
  refine set_link (p := fun c => isWordMid c && c != ':') (l := wordEnd) endC (fun c => ?_) (fun _ h => h) (fun _ h => h) c
  simp only [Bool.and_eq_true, isWordMid_iff, bne_iff_ne]
  have h1 : ∀ c ∈ Parser.wordChars, c = ':' ∨ c ∈ wordEnd := by decide +kernel
  have h2 : ∀ c ∈ wordEnd, c ∈ Parser.wordChars ∧ c ≠ ':' := by decide +kernel
  exact ⟨fun h => (h1 c h.1).resolve_left h.2, h2 c⟩

/-- An anchored expression is only tried on the whole text. -/
theorem search_anch {n : Nat} {r : Re} (h : ∀ u, u.length < n → outs n r u = []) (t : List Nat) (ht : t.length ≤ n) :
    search n r t = if t.length = n then (outs n r t).head?.map (fun p => (t, p)) else none := by
  induction t with
  | nil =>
    simp only [search]
    split
    · rfl
    · rw [h [] (by simp at *; omega)]; rfl
  | cons c t ih =>
    simp only [List.length_cons] at ht
    have hi := ih (by omega)
    rw [if_neg (by omega)] at hi
    simp only [search, hi]
    split
    · rename_i q hq
      split
      · simp [hq]
      · rename_i hne
        rw [h (c :: t) (by simp at *; omega)] at hq; cases hq
    · rename_i hq
      split
      · simp [hq]
      · rfl

/-- Numbers of repetitions that fail can be left out. -/
theorem downs_skip {u : List Nat} {g : List Nat → List Out} (m : Nat) : ∀ k, m ≤ k → (∀ j, m < j → j ≤ k → g (u.drop j) = []) →
    andThen (downs u 1 k) g = andThen (downs u 1 m) g := by
  intro k
  induction k with
  | zero => intro h _; rw [show m = 0 by omega]
  | succ k ih =>
    intro h hf
    rcases Nat.eq_or_lt_of_le h with rfl | h
    · rfl
    · rw [← ih (by omega) (fun j h1 h2 => hf j h1 (by omega))]
      have : downs u 1 (k + 1) = (u.drop (k + 1), []) :: downs u 1 k := by simp [downs]
      rw [this]
      have hg := hf (k + 1) h (Nat.le_refl _)
      simp [andThen, List.flatMap_cons, hg]

theorem dropColons_split (s : Str) : ∃ cs, s = dropColons s ++ cs ∧ (∀ c ∈ cs, c = ':') ∧ (dropColons s).getLast? ≠ some ':' := by
  refine ⟨(s.reverse.takeWhile (· == ':')).reverse, ?_, ?_, ?_⟩
  · unfold dropColons
    rw [← List.reverse_append, List.takeWhile_append_dropWhile, List.reverse_reverse]
  · intro c hc
    have := takeWhile_all _ _ c (List.mem_reverse.mp hc)
    simpa using this
  · unfold dropColons
    rw [List.getLast?_reverse]
    intro h
    have := List.head?_dropWhile_not (fun c : Char => c == ':') s.reverse
    rw [h] at this
    simp at this

/-- The preferred way to match a word at the start of the text is what the scanner gives. -/
theorem word_outs (s : Str) : (outs s.length wordRe (codes s)).head? = (scanWord s).map (fun v => (codes v.2, [])) := by
  generalize hn : s.length = n
  rw [show outs n wordRe (codes s) =
    andThen (andThen (andThen (outs n .bol (codes s)) (outs n (.set false alphaC))) (outs n (.plus (.set false midC)))) (outs n (.set false endC)) from rfl]
  rw [show outs n .bol (codes s) = [(codes s, [])] by simp [outs, codes_length, hn], andThen_single, outs_simple (by rfl)]
  cases s with
  | nil => rfl
  | cons a r =>
    simp only [codes, List.map_cons, alpha_test, List.nil_append]
    unfold scanWord
    rcases Bool.eq_false_or_eq_true (isAlpha a) with ha | ha
    · simp only [ha, if_true, Bool.true_and, decide_eq_true_eq, List.map_cons, List.map_nil, andThen_single, List.nil_append]
      rw [← codes, plus_simple (by rfl), takeWhile_link mid_test, codes_length]
      simp only [List.map_id']
      obtain ⟨cs, h1, h2, h3⟩ := dropColons_split (r.takeWhile isWordMid)
      generalize hw : dropColons (r.takeWhile isWordMid) = w at h1 h3 ⊢
      have hr := (List.takeWhile_append_dropWhile (p := isWordMid) (l := r)).symm
      have hfail : ∀ j, w.length - 1 < j → j ≤ (r.takeWhile isWordMid).length → w.length ≤ j → outs n (.set false endC) ((codes r).drop j) = [] := by
        intro j _ hj2 hj
        rw [outs_simple (by rfl)]
        rw [show (codes r).drop j = codes (r.drop j) by simp [codes]]
        cases hd : r.drop j with
        | nil => rfl
        | cons c v =>
          simp only [codes, List.map_cons, end_test]
          rw [if_neg]
          intro hc
          simp only [Bool.and_eq_true, bne_iff_ne] at hc
          have hcj : r[j]? = some c := by
            have := congrArg List.head? hd
            rw [List.head?_drop] at this; exact this
          rw [hr] at hcj
          rcases Nat.lt_or_ge j (r.takeWhile isWordMid).length with hlt | hge
          · rw [List.getElem?_append_left hlt, h1, List.getElem?_append_right hj] at hcj
            exact hc.2 (h2 c (List.mem_of_getElem? hcj))
          · rw [List.getElem?_append_right hge] at hcj
            have : j - (r.takeWhile isWordMid).length = 0 := by omega
            rw [this, ← List.head?_eq_getElem?] at hcj
            have := List.head?_dropWhile_not isWordMid r
            rw [hcj] at this
            simp at this
            rw [hc.1] at this; cases this
      have hlen : w.length ≤ (r.takeWhile isWordMid).length := by rw [h1]; simp
      rcases Nat.lt_or_ge w.length 2 with hsm | hbig
      · rw [if_neg (by omega)]
        rw [downs_skip 0 _ (by omega) (fun j j1 j2 => hfail j (by omega) j2 (by omega))]
        rfl
      · rw [if_pos hbig]
        rw [downs_skip (w.length - 1) _ (by omega) (fun j j1 j2 => hfail j j1 j2 (by omega))]
        obtain ⟨m, hm⟩ : ∃ m, w.length - 1 = m + 1 := ⟨w.length - 2, by omega⟩
        rw [hm, show downs (codes r) 1 (m + 1) = ((codes r).drop (m + 1), []) :: downs (codes r) 1 m by simp [downs]]
        have hlast : ∃ c, w[m + 1]? = some c ∧ isWordMid c = true ∧ c ≠ ':' := by
          cases hc : w.getLast? with
          | none => simp at hc; subst hc; simp at hbig
          | some c =>
            refine ⟨c, ?_, ?_, ?_⟩
            · rw [List.getLast?_eq_getElem?, hm] at hc; exact hc
            · have : c ∈ r.takeWhile isWordMid := by rw [h1]; simp [List.mem_of_getLast? hc]
              exact takeWhile_all _ _ c this
            · intro hcc; rw [hcc] at hc; exact h3 hc
        obtain ⟨c, c1, c2, c3⟩ := hlast
        have hdrop : r.drop (m + 1) = c :: r.drop w.length := by
          have hlt : m + 1 < w.length := by omega
          have : r[m + 1]? = some c := by
            rw [hr, List.getElem?_append_left (by omega), h1, List.getElem?_append_left hlt]; exact c1
          have hl2 : m + 1 < r.length := by
            rcases Nat.lt_or_ge (m + 1) r.length with h | h
            · exact h
            · rw [List.getElem?_eq_none h] at this; cases this
          rw [List.drop_eq_getElem_cons hl2]
          rw [List.getElem?_eq_getElem hl2] at this
          cases this
          rw [show m + 1 + 1 = w.length by omega]
        have hg : outs n (.set false endC) ((codes r).drop (m + 1)) = [(codes (r.drop w.length), [])] := by
          rw [show (codes r).drop (m + 1) = codes (r.drop (m + 1)) by simp [codes], hdrop, outs_simple (by rfl)]
          simp [codes, end_test, c2, c3]
        simp [andThen, List.flatMap_cons, hg]; simp [codes]
    · simp only [ha]
      rfl

theorem flag_outs (s : Str) : outs s.length flagRe (codes s) = match scanFlag s with | none => [] | some v => [(codes v.2, [])] := by
  generalize hn : s.length = n
  rw [show outs n flagRe (codes s) =
    andThen (andThen (andThen (outs n .bol (codes s)) (outs n (.lit [91]))) (outs n (.plus (.set false flagC)))) (outs n (.lit [93])) from rfl]
  rw [show outs n .bol (codes s) = [(codes s, [])] by simp [outs, codes_length, hn], andThen_single, outs_lit1]
  cases s with
  | nil => rfl
  | cons a r =>
    simp only [codes, List.map_cons]
    rcases Classical.em (a = '[') with ha | ha
    · subst ha
      rw [if_pos (by decide), ← codes]
      simp only [List.map_cons, List.map_nil, List.nil_append, andThen_single, List.map_id']
      rw [plus_simple (by rfl), run_then (by decide +kernel), takeWhile_link flag_test, dropWhile_link flag_test, codes_length]
      have hs : scanFlag ('[' :: r) = (match r.takeWhile isFlagChar, r.dropWhile isFlagChar with
        | [], _ => none
        | f, ']' :: rest => some ('[' :: f ++ [']'], rest)
        | _, _ => none) := rfl
      rw [hs]
      generalize r.takeWhile isFlagChar = w
      cases hd : r.dropWhile isFlagChar with
      | nil => cases w <;> rfl
      | cons d v =>
        simp only [codes, List.map_cons]
        cases w with
        | nil => simp
        | cons b w =>
          simp only [List.length_cons]
          rcases Classical.em (d = ']') with hd | hd
          · subst hd
            rw [if_pos ⟨by omega, by decide⟩]; rfl
          · rw [if_neg (by rintro ⟨-, h⟩; exact hd (toNat_inj (a := d) (b := ']') h.symm))]
            split
            · rfl
            · rename_i heq
              split at heq
              · cases heq
              · rename_i hh _; cases hh; exact absurd rfl hd
              · cases heq
    · rw [if_neg (by intro h; exact ha (toNat_inj (a := a) (b := '[') h.symm))]
      have : scanFlag (a :: r) = none := by
        unfold scanFlag; split
        · rename_i h; cases h; exact absurd rfl ha
        · rfl
      rw [this]; rfl

theorem word_anch {n : Nat} (u : List Nat) (h : u.length < n) : outs n wordRe u = [] := by
  rw [show outs n wordRe u =
    andThen (andThen (andThen (outs n .bol u) (outs n (.set false alphaC))) (outs n (.plus (.set false midC)))) (outs n (.set false endC)) from rfl]
  rw [show outs n .bol u = [] by simp [outs]; omega]; rfl

theorem flag_anch {n : Nat} (u : List Nat) (h : u.length < n) : outs n flagRe u = [] := by
  rw [show outs n flagRe u =
    andThen (andThen (andThen (outs n .bol u) (outs n (.lit [91]))) (outs n (.plus (.set false flagC)))) (outs n (.lit [93])) from rfl]
  rw [show outs n .bol u = [] by simp [outs]; omega]; rfl

/-- C123: the patterns of `get_token` are accepted, and their `find` and `end(0)`, on a line, are those of the scanners of the model of
    `config_parser` (the match starts at the start of the line). -/
theorem C123_words :
    (∃ p, compile (bytes wordPattern) = .ok p ∧ ∀ s : Str,
      (scanWord s = none → Finds p (codes s) .no) ∧
      ∀ k rest, scanWord s = some (k, rest) → ∃ f, Finds p (codes s) (.yes f) ∧ f.s = 0 ∧ s.drop f.e = rest ∧ slice s 0 f.e = k) ∧
    (∃ p, compile (bytes flagPattern) = .ok p ∧ ∀ s : Str,
      (scanFlag s = none → Finds p (codes s) .no) ∧
      ∀ k rest, scanFlag s = some (k, rest) → ∃ f, Finds p (codes s) (.yes f) ∧ f.s = 0 ∧ s.drop f.e = rest ∧ slice s 0 f.e = k) := by
  have fin : ∀ (s k rest : Str), s = k ++ rest → s.drop (s.length - rest.length) = rest ∧ slice s 0 (s.length - rest.length) = k := by
    intro s k rest h; subst h; simp [slice]
  constructor
  · obtain ⟨p, hp, hf⟩ := finds_search (exp := bytes wordPattern) (by decide +kernel) word_parse (by decide +kernel)
    refine ⟨p, hp, fun s => ?_⟩
    have h := hf (codes s)
    rw [search_anch (fun u hu => word_anch u hu) _ (Nat.le_refl _), if_pos rfl, codes_length, word_outs] at h
    refine ⟨fun hn => by rw [hn] at h; exact h, fun k rest hk => ?_⟩
    rw [hk] at h
    simp only [Option.map_some, foundOf, codes_length] at h
    obtain ⟨e1, e2⟩ := fin s k rest (scanWord_sound hk).2
    exact ⟨_, h, by simp, e1, e2⟩
  · obtain ⟨p, hp, hf⟩ := finds_search (exp := bytes flagPattern) (by decide +kernel) flag_parse (by decide +kernel)
    refine ⟨p, hp, fun s => ?_⟩
    have h := hf (codes s)
    rw [search_anch (fun u hu => flag_anch u hu) _ (Nat.le_refl _), if_pos rfl, codes_length, flag_outs] at h
    refine ⟨fun hn => by rw [hn] at h; exact h, fun k rest hk => ?_⟩
    rw [hk] at h
    simp only [List.head?_cons, Option.map_some, foundOf, codes_length] at h
    obtain ⟨t, -, h1', h2⟩ := scanFlag_sound hk
    obtain ⟨e1, e2⟩ := fin s k rest (by rw [h2, h1'])
    exact ⟨_, h, by simp, e1, e2⟩

end Vital.Regex
