/-
  Regular expressions: properties C118 to C121.
-/
import Verif.Regex.Groups
import Verif.Regex.Syntax2

namespace Vital.Regex
open Re

/-- The search ends with this result (the model's bound on the steps plays no role from some bound on). -/
def Finds (p : Prog) (text : List Nat) (res : FRes) : Prop := ∃ N, ∀ fuel, N ≤ fuel → find p fuel text = res

theorem Finds.unique {p : Prog} {text : List Nat} {a b : FRes} (ha : Finds p text a) (hb : Finds p text b) : a = b := by
  obtain ⟨N, hN⟩ := ha
  obtain ⟨M, hM⟩ := hb
  rw [← hN (max N M) (by omega), hM (max N M) (by omega)]

/-! ### The size of programs -/

theorem byteRange_length (lo hi : Nat) : (byteRange lo hi).length = hi + 1 - lo := by simp [byteRange]

theorem classScan_size : ∀ (k p : Nat) (t cs t' : List Nat), t.length ≤ k → (∀ c ∈ t, c < 256) → classScan p t = some (cs, t') →
    cs.length ≤ 256 * (t.length - t'.length) ∧ t'.length < t.length ∧ ∀ c ∈ t', c < 256 := by
  intro k
  induction k with
  | zero =>
    intro p t cs t' hk _ h
    cases t with
    | nil => simp [classScan] at h
    | cons c t => simp at hk
  | succ k ih =>
    intro p t cs t' hk hb h
    cases t with
    | nil => simp [classScan] at h
    | cons c t =>
      rw [classScan_cons] at h
      split at h
      · cases h; exact ⟨by simp, by simp, fun c hc => hb c (by simp [hc])⟩
      · split at h
        · cases t with
          | nil => simp at h
          | cons d t =>
            simp only at h
            split at h
            · cases h; exact ⟨by simp; omega, by simp; omega, fun c hc => hb c (by simp [hc])⟩
            · split at h
              · cases h
              · cases hr : classScan d t with
                | none => simp [hr] at h
                | some v =>
                  obtain ⟨cs1, t1⟩ := v
                  simp [hr] at h
                  obtain ⟨rfl, rfl⟩ := h
                  obtain ⟨h1, h2, h3⟩ := ih d t cs1 t1 (by simp at hk; omega) (fun c hc => hb c (by simp [hc])) hr
                  have hd := hb d (by simp)
                  refine ⟨?_, by simp; omega, h3⟩
                  simp only [List.length_append, byteRange_length, List.length_cons]; omega
        · cases hr : classScan c t with
          | none => simp [hr] at h
          | some v =>
            obtain ⟨cs1, t1⟩ := v
            simp [hr] at h
            obtain ⟨rfl, rfl⟩ := h
            obtain ⟨h1, h2, h3⟩ := ih c t cs1 t1 (by simp at hk; omega) (fun c hc => hb c (by simp [hc])) hr
            exact ⟨by simp; omega, by simp; omega, h3⟩

theorem classBody_size {t : List Nat} {neg : Bool} {cs t' : List Nat} (hb : ∀ c ∈ t, c < 256) (h : classBody t = some (neg, cs, t')) :
    cs.length ≤ 256 * (t.length - t'.length) ∧ t'.length < t.length ∧ ∀ c ∈ t', c < 256 := by
  have main : ∀ (g : Bool) (c : Nat) (v : List Nat), (g = true ∨ c ≠ 94) → t = (if g then [94] else []) ++ c :: v →
      cs.length ≤ 256 * (t.length - t'.length) ∧ t'.length < t.length ∧ ∀ c ∈ t', c < 256 := by
    intro g c v hg ht
    rw [ht, classBody_eq g c v hg] at h
    cases hs : classScan c v with
    | none => simp [hs] at h
    | some w =>
      obtain ⟨cs1, t1⟩ := w
      simp [hs] at h
      obtain ⟨rfl, rfl, rfl⟩ := h
      obtain ⟨h1, h2, h3⟩ := classScan_size _ c v cs1 t1 (Nat.le_refl _) (fun d hd => hb d (by rw [ht]; simp [hd])) hs
      have : t.length = (if g then 1 else 0) + v.length + 1 := by rw [ht]; cases g <;> simp; omega
      refine ⟨?_, by omega, h3⟩
      simp only [List.length_cons]; omega
  cases t with
  | nil => simp [classBody] at h
  | cons c t =>
    by_cases hc : c = 94
    · subst hc
      cases t with
      | nil => simp [classBody] at h
      | cons d t => exact main true d t (Or.inl rfl) rfl
    · exact main false c t (Or.inr hc) rfl

/-- The code of a group is at most 256 bytes for each character (one has been read before). -/
def SizeGroup (preg : List Nat → Nat → PRes) : Prop :=
  ∀ t np res, (∀ c ∈ t, c < 256) → preg t np = some res → len res.1 ≤ 256 * (t.length + 1 - res.2.1.length) ∧ res.2.1.length < t.length ∧ ∀ c ∈ res.2.1, c < 256

theorem pAtom_size {preg} (hp : SizeGroup preg) {t np res} (hb : ∀ c ∈ t, c < 256) (h : pAtom preg t np = some res) :
    len res.1 ≤ 256 * (t.length - res.2.1.length) - 0 ∧ res.2.1.length < t.length ∧ ∀ c ∈ res.2.1, c < 256 := by
  cases t with
  | nil => simp [pAtom] at h
  | cons c t =>
    have hb' : ∀ c ∈ t, c < 256 := fun d hd => hb d (by simp [hd])
    simp only [pAtom] at h
    split at h
    · cases h; simp [len]; exact hb'
    split at h
    · cases h; simp [len]; exact hb'
    split at h
    · cases h; simp [len]; exact hb'
    split at h
    · split at h
      · cases h
      · rename_i neg cs t1 hcb
        cases h
        obtain ⟨h1, h2, h3⟩ := classBody_size hb' hcb
        simp only [len, List.length_cons]
        exact ⟨by omega, by omega, h3⟩
    split at h
    · obtain ⟨h1, h2, h3⟩ := hp _ _ _ hb' h
      exact ⟨by simpa using h1, by simp; omega, h3⟩
    split at h
    · cases h
    split at h
    · cases h
    split at h
    · split at h
      · cases h
      · rename_i d v; cases h
        refine ⟨by simp [len]; omega, by simp; omega, fun e he => hb e (by simp [he])⟩
    · obtain ⟨w, v, h1, h2, h3, h4⟩ := runLength_spec (c :: t)
      rw [h2] at h
      split at h
      · cases h
      · rename_i hne
        rw [h1] at h
        simp at h
        subst h
        have hl : (c :: t).length = w.length + v.length := by rw [h1]; simp
        refine ⟨by simp only [len]; rw [hl]; omega, by rw [hl]; simp only; omega, fun e he => hb e (by rw [h1]; simp [he])⟩

theorem len_quant (op : Nat) (r : Re) : len (quant op r) ≤ len r + 12 := by
  simp only [quant]
  split
  · simp only [len]; split <;> omega
  · split
    · simp only [len]; split <;> omega
    · simp only [len]; omega

theorem pPiece_size {preg} (hp : SizeGroup preg) {t np res} (hb : ∀ c ∈ t, c < 256) (h : pPiece preg t np = some res) :
    len res.1 ≤ 256 * (t.length - res.2.1.length) ∧ res.2.1.length < t.length ∧ ∀ c ∈ res.2.1, c < 256 := by
  simp only [pPiece] at h
  cases ha : pAtom preg t np with
  | none => simp [ha] at h
  | some v =>
    obtain ⟨r0, t0, np0⟩ := v
    simp only [ha] at h
    obtain ⟨h1, h2, h3⟩ := pAtom_size hp hb ha
    simp only [Nat.sub_zero] at h1 h2 h3
    cases t0 with
    | nil => simp at h; subst h; exact ⟨h1, h2, h3⟩
    | cons op t1 =>
      simp only at h
      split at h
      · simp at h; subst h; exact ⟨h1, h2, h3⟩
      · split at h
        · cases h
        · have hq : res = (quant op r0, t1, np0) := by
            split at h
            · split at h
              · cases h
              · simp at h; exact h.symm
            · simp at h; exact h.symm
          subst hq
          have := len_quant op r0
          simp only [List.length_cons] at h1 h2 ⊢
          exact ⟨by omega, by omega, fun c hc => h3 c (by simp [hc])⟩

def lenO : Option Re → Nat
  | none => 0
  | some r => len r

theorem pPieces_size {preg} (hp : SizeGroup preg) : ∀ fuel acc t np acc' t' np', (∀ c ∈ t, c < 256) → pPieces preg fuel acc t np = some (acc', t', np') →
    lenO acc' ≤ lenO acc + 256 * (t.length - t'.length) ∧ t'.length ≤ t.length ∧ ∀ c ∈ t', c < 256 := by
  intro fuel
  induction fuel with
  | zero => intro acc t np acc' t' np' _ h; simp [pPieces] at h
  | succ fuel ih =>
    intro acc t np acc' t' np' hb h
    cases t with
    | nil => simp [pPieces] at h; obtain ⟨rfl, rfl, rfl⟩ := h; simp
    | cons c t =>
      simp only [pPieces] at h
      split at h
      · simp at h; obtain ⟨rfl, rfl, rfl⟩ := h; exact ⟨by omega, by omega, hb⟩
      · cases hq : pPiece preg (c :: t) np with
        | none => simp [hq] at h
        | some v =>
          obtain ⟨q, t1, np1⟩ := v
          simp only [hq] at h
          obtain ⟨h1, h2, h3⟩ := pPiece_size hp hb hq
          simp only at h1 h2 h3
          obtain ⟨g1, g2, g3⟩ := ih _ _ _ _ _ _ h3 h
          have hj : lenO (some (joinP acc q)) = lenO acc + len q := by cases acc <;> simp [lenO, joinP, len]
          rw [hj] at g1
          exact ⟨by omega, by omega, g3⟩

theorem pBranch_size {preg} (hp : SizeGroup preg) {t np r t' np'} (hb : ∀ c ∈ t, c < 256) (h : pBranch preg t np = some (r, t', np')) :
    len r ≤ 256 * (t.length - t'.length) + 3 ∧ t'.length ≤ t.length ∧ ∀ c ∈ t', c < 256 := by
  simp only [pBranch] at h
  cases hq : pPieces preg (t.length + 1) none t np with
  | none => simp [hq] at h
  | some v =>
    obtain ⟨acc, t1, np1⟩ := v
    simp [hq] at h
    obtain ⟨rfl, rfl, rfl⟩ := h
    obtain ⟨h1, h2, h3⟩ := pPieces_size hp _ _ _ _ _ _ _ hb hq
    refine ⟨?_, h2, h3⟩
    cases acc with
    | none => simp [len]
    | some r => simp only [lenO] at h1; simp only [Option.getD_some]; omega

theorem len_snocAlt {r b : Re} (h : AltChain r) : len (snocAlt r b) = len r + len b + 3 := by
  induction r with
  | last a => simp [snocAlt, len]; omega
  | alt a r _ ih => simp [snocAlt, len, ih h]; omega
  | _ => exact absurd h (by simp [AltChain])

theorem pAlts_size {preg} (hp : SizeGroup preg) : ∀ fuel acc t np r t' np', AltChain acc → (∀ c ∈ t, c < 256) → pAlts preg fuel acc t np = some (r, t', np') →
    len r ≤ len acc + 256 * (t.length - t'.length) ∧ t'.length ≤ t.length ∧ ∀ c ∈ t', c < 256 := by
  intro fuel
  induction fuel with
  | zero => intro acc t np r t' np' _ _ h; simp [pAlts] at h
  | succ fuel ih =>
    intro acc t np r t' np' hc hb h
    simp only [pAlts] at h
    split at h
    · rename_i v
      cases hq : pBranch preg v np with
      | none => simp [hq] at h
      | some w =>
        obtain ⟨b, t1, np1⟩ := w
        simp only [hq] at h
        obtain ⟨h1, h2, h3⟩ := pBranch_size hp (fun c hc => hb c (by simp [hc])) hq
        obtain ⟨s1, -, -⟩ := snocAlt_sem (b := b) hc
        obtain ⟨g1, g2, g3⟩ := ih _ _ _ _ _ _ s1 h3 h
        rw [len_snocAlt hc] at g1
        simp only [List.length_cons]
        exact ⟨by omega, by omega, g3⟩
    · simp at h; obtain ⟨rfl, rfl, rfl⟩ := h; exact ⟨by omega, by omega, hb⟩

theorem pAll_size {preg} (hp : SizeGroup preg) {t np r t' np'} (hb : ∀ c ∈ t, c < 256) (h : pAll preg t np = some (r, t', np')) :
    len r ≤ 256 * (t.length - t'.length) + 6 ∧ t'.length ≤ t.length ∧ ∀ c ∈ t', c < 256 := by
  simp only [pAll] at h
  cases hq : pBranch preg t np with
  | none => simp [hq] at h
  | some w =>
    obtain ⟨b, t1, np1⟩ := w
    simp only [hq] at h
    obtain ⟨h1, h2, h3⟩ := pBranch_size hp hb hq
    obtain ⟨g1, g2, g3⟩ := pAlts_size hp _ _ _ _ _ _ _ (show AltChain (.last b) from trivial) h3 h
    simp only [len] at g1
    exact ⟨by omega, by omega, g3⟩

theorem pGroup_size : ∀ k, SizeGroup (pGroup k) := by
  intro k
  induction k with
  | zero => intro t np res _ h; simp [pGroup] at h
  | succ k ih =>
    intro t np res hb h
    simp only [pGroup] at h
    split at h
    · cases h
    · split at h
      · rename_i r0 t0 np0 hq
        simp at h; subst h
        obtain ⟨h1, h2, h3⟩ := pAll_size ih hb hq
        simp only [List.length_cons, len] at h1 h2 ⊢
        exact ⟨by omega, by omega, fun c hc => h3 c (by simp [hc])⟩
      · cases h

theorem parse_size {exp : List Nat} {r : Re} (hb : ∀ c ∈ exp, c < 256) (h : parse exp = some r) : len r ≤ 256 * exp.length + 6 := by
  simp only [parse] at h
  split at h
  · rename_i r0 np hq
    cases h
    have := (pAll_size (pGroup_size 10) hb hq).1
    simpa using this
  · cases h

/-! ### C118 -/

/-- C118: `compile` never accesses memory outside the program it allocates; it accepts only regular expressions; it accepts every regular
    expression of at most 127 characters, and any other one unless its program has 32767 bytes or more. -/
theorem C118_compile_accepts (exp : List Nat) (h0 : 0 ∉ exp) :
    compile exp ≠ .error .crash ∧
    (∀ p, compile exp = .ok p → (∃ e, IsRegex exp e) ∧ p.code.length < 32767) ∧
    (∀ e, IsRegex exp e → (∀ c ∈ exp, c < 256) → exp.length ≤ 127 → ∃ p, compile exp = .ok p) := by
  have hc := compile_eq exp h0
  refine ⟨?_, ?_, ?_⟩
  · rw [hc]
    split
    · intro h; cases h
    · split <;> intro h <;> cases h
  · intro p hp
    rw [hc] at hp
    split at hp
    · cases hp
    · rename_i r hr
      split at hp
      · cases hp
      · rename_i hl
        cases hp
        obtain ⟨e, he, -⟩ := parse_sound hr
        obtain ⟨hw, ha⟩ := parse_ok h0 hr
        refine ⟨⟨e, he⟩, ?_⟩
        have hcode : (optOf r).code = progOf r := by unfold optOf; split <;> rfl
        rw [hcode, progOf_length hw ha]; omega
  · intro e he hb hl
    obtain ⟨r, hr, -⟩ := parse_complete he
    have := parse_size hb hr
    rw [hc, hr]
    simp only
    rw [if_neg (by omega)]
    exact ⟨_, rfl⟩

/-- C118: what is not a regular expression is refused. -/
theorem C118_compile_refuses (exp : List Nat) (h0 : 0 ∉ exp) (h : ¬ ∃ e, IsRegex exp e) : compile exp = .error .refused := by
  rw [compile_eq exp h0]
  cases hr : parse exp with
  | none => rfl
  | some r => obtain ⟨e, he, -⟩ := parse_sound hr; exact absurd ⟨e, he⟩ h

/-- C118: the grammar gives a text only one meaning. -/
theorem C118_one_meaning {exp : List Nat} {e e' : Rx} (h : IsRegex exp e) (h' : IsRegex exp e') (text : List Nat) (i : Nat) (hi : i ≤ text.length) :
    ways text e i = ways text e' i ∧ ∀ j, Rx.M text e i j ↔ Rx.M text e' i j := by
  obtain ⟨r, hr, hs⟩ := parse_complete h
  obtain ⟨r', hr', hs'⟩ := parse_complete h'
  rw [hr] at hr'; cases hr'
  have heq : (ways text e i).map (wayOut text) = (ways text e' i).map (wayOut text) := by
    rw [ways_outs e i hi, ways_outs e' i hi, ← hs.outs, hs'.outs]
  have hw : ways text e i = ways text e' i := by
    have h1 := ways_range (text := text) e i hi
    have h2 := ways_range (text := text) e' i hi
    revert h1 h2 heq
    generalize ways text e i = a
    generalize ways text e' i = b
    intro heq h1 h2
    induction a generalizing b with
    | nil => cases b with | nil => rfl | cons _ _ => simp at heq
    | cons p a ih =>
      cases b with
      | nil => simp at heq
      | cons q b =>
        simp only [List.map_cons, List.cons.injEq] at heq
        obtain ⟨e1, e2⟩ := heq
        have hp := h1 p (by simp)
        have hq := h2 q (by simp)
        have hl : (text.drop p.1).length = (text.drop q.1).length := by
          have := congrArg (fun z => z.1.length) e1
          simpa [wayOut] using this
        simp only [List.length_drop] at hl
        have hpq : p = q := by
          have e3 : p.2 = q.2 := by simpa [wayOut] using congrArg Prod.snd e1
          have e4 : p.1 = q.1 := by omega
          exact Prod.ext e4 e3
        rw [hpq, ih b e2 (fun x hx => h1 x (by simp [hx])) (fun x hx => h2 x (by simp [hx]))]
  refine ⟨hw, fun j => ⟨fun hm => ?_, fun hm => ?_⟩⟩
  · obtain ⟨tr, ht⟩ := M_ways hm h.choose_spec.ok
    rw [hw] at ht; exact ways_M e' i hi _ ht
  · obtain ⟨tr, ht⟩ := M_ways hm h'.choose_spec.ok
    rw [← hw] at ht; exact ways_M e i hi _ ht

/-! ### C119, C120, C121 -/

/-- What `find` finds, by position: the first place with a way to match, and the first way there. -/
theorem find_spec {exp : List Nat} {p : Prog} {e : Rx} (h0 : 0 ∉ exp) (hc : compile exp = .ok p) (he : IsRegex exp e) (text : List Nat) :
    (Finds p text .no ∧ ∀ i, i ≤ text.length → ways text e i = []) ∨
    (∃ i w, Finds p text (.yes ⟨i, w.1, capsOf w.2⟩) ∧ i ≤ text.length ∧ (ways text e i).head? = some w ∧ ∀ k, k < i → ways text e k = []) := by
  obtain ⟨r, hr, hs⟩ := parse_complete he
  obtain ⟨hw, ha⟩ := parse_ok h0 hr
  rw [compile_eq exp h0, hr] at hc
  simp only at hc
  split at hc
  · cases hc
  rename_i hl
  cases hc
  have hf := find_eq hw ha (by omega) text
  have hmap : ∀ i, i ≤ text.length → outs text.length r (text.drop i) = (ways text e i).map (wayOut text) := by
    intro i hi; rw [hs.outs, ways_outs e i hi]
  have hsuf : ∀ u, u <:+ text → u = text.drop (text.length - u.length) := fun u hu => List.suffix_iff_eq_drop.mp hu
  cases hse : search text.length r text with
  | none =>
    left
    refine ⟨by rw [hse] at hf; exact hf, fun i hi => ?_⟩
    have := search_none.mp hse (text.drop i) (List.drop_suffix _ _)
    rw [hmap i hi] at this
    simpa using this
  | some v =>
    obtain ⟨u, q⟩ := v
    right
    obtain ⟨h1, h2, h3⟩ := search_some hse
    have hul := h1.length_le
    generalize hi : text.length - u.length = i
    have hi' : i ≤ text.length := by omega
    have hu : u = text.drop i := by rw [← hi]; exact hsuf u h1
    rw [hu, hmap i hi', List.head?_map] at h2
    cases hh : (ways text e i).head? with
    | none => rw [hh] at h2; cases h2
    | some w =>
      rw [hh] at h2; simp at h2; subst h2
      have hwr := ways_range e i hi' w (List.mem_of_mem_head? hh)
      refine ⟨i, w, ?_, hi', hh, ?_⟩
      · rw [hse] at hf
        obtain ⟨N, hN⟩ := hf
        refine ⟨N, fun f hf => ?_⟩
        rw [hN f hf]
        simp only [foundOf, wayOut, List.length_drop, hi]
        rw [show text.length - (text.length - w.1) = w.1 by omega]
      · intro k hk
        have := h3 (text.drop k) (List.drop_suffix _ _) (by simp; omega)
        rw [hmap k (by omega)] at this
        simpa using this

/-- C119: `find` ends, without a bad memory access, and returns true exactly when the expression matches some part of the text. -/
theorem C119_find_iff {exp : List Nat} {p : Prog} {e : Rx} (h0 : 0 ∉ exp) (hc : compile exp = .ok p) (he : IsRegex exp e) (text : List Nat) :
    (Finds p text .no ↔ ¬ ∃ i j, Rx.M text e i j) ∧ ((∃ f, Finds p text (.yes f)) ↔ ∃ i j, Rx.M text e i j) ∧
    (Finds p text .no ∨ ∃ f, Finds p text (.yes f)) := by
  have hok := he.choose_spec.ok
  rcases find_spec h0 hc he text with ⟨h1, h2⟩ | ⟨i, w, h1, hi, h2, h3⟩
  · have hno : ¬ ∃ i j, Rx.M text e i j := by
      rintro ⟨i, j, hm⟩
      obtain ⟨tr, ht⟩ := M_ways hm hok
      have hr := M_range hm
      rw [h2 i (by omega)] at ht; cases ht
    refine ⟨⟨fun _ => hno, fun _ => h1⟩, ⟨?_, fun h => absurd h hno⟩, Or.inl h1⟩
    rintro ⟨f, hf⟩; exact absurd (h1.unique hf) (by simp)
  · have hyes : ∃ i j, Rx.M text e i j := ⟨i, w.1, ways_M e i hi w (List.mem_of_mem_head? h2)⟩
    refine ⟨⟨fun h => absurd (h.unique h1) (by simp), fun h => absurd hyes h⟩, ⟨fun _ => hyes, fun _ => ⟨_, h1⟩⟩, Or.inr ⟨_, h1⟩⟩

/-- C120: the match found is one, no match starts further left, and its end and groups are those of the preferred way to match from there;
    `start(n)` and `end(n)` of a group are its last entering and leaving. -/
theorem C120_find_leftmost {exp : List Nat} {p : Prog} {e : Rx} (h0 : 0 ∉ exp) (hc : compile exp = .ok p) (he : IsRegex exp e) (text : List Nat)
    {f : Found} (hf : Finds p text (.yes f)) :
    Rx.M text e f.s f.e ∧ (∀ i j, Rx.M text e i j → f.s ≤ i) ∧
    ∃ tr, (ways text e f.s).head? = some (f.e, tr) ∧
      ∀ no, f.caps.st no = (tr.filterMap (Evt.enters no)).getLast? ∧ f.caps.en no = (tr.filterMap (Evt.leaves no)).getLast? := by
  have hok := he.choose_spec.ok
  rcases find_spec h0 hc he text with ⟨h1, h2⟩ | ⟨i, w, h1, hi, h2, h3⟩
  · exact absurd (h1.unique hf) (by simp)
  · have := h1.unique hf
    cases this
    refine ⟨ways_M e i hi w (List.mem_of_mem_head? h2), ?_, w.2, h2, capsOf_eq w.2⟩
    intro k j hm
    obtain ⟨tr, ht⟩ := M_ways hm hok
    rcases Nat.lt_or_ge k i with hk | hk
    · rw [h3 k hk] at ht; cases ht
    · exact hk

/-- C121: for each group, either it is unset, or what is recorded is a part of the match, and is matched by the inside of that group. -/
theorem C121_groups {exp : List Nat} {p : Prog} {e : Rx} (h0 : 0 ∉ exp) (hc : compile exp = .ok p) (he : IsRegex exp e) (text : List Nat)
    {f : Found} (hf : Finds p text (.yes f)) (no : Nat) :
    (f.caps.st no = none ∧ f.caps.en no = none) ∨
    ∃ a b sub, f.caps.st no = some a ∧ f.caps.en no = some b ∧ f.s ≤ a ∧ a ≤ b ∧ b ≤ f.e ∧ e.Has no sub ∧ Rx.M text sub a b := by
  rcases find_spec h0 hc he text with ⟨h1, h2⟩ | ⟨i, w, h1, hi, h2, h3⟩
  · exact absurd (h1.unique hf) (by simp)
  · have := h1.unique hf
    cases this
    exact caps_group he.choose_spec.numbered hi (List.mem_of_mem_head? h2) no

end Vital.Regex
