/-
  The parser accepts every regular expression of the grammar.
-/
import Verif.Regex.Syntax

namespace Vital.Regex
open Re

theorem Syn.le {k : Kind} {t : List Nat} {r : Rx} {n m : Nat} (h : Syn k t r n m) : n ≤ m := by
  induction h with
  | group _ _ ih => omega
  | one _ ih => exact ih
  | star _ _ ih => exact ih
  | plus _ _ ih => exact ih
  | opt _ ih => exact ih
  | cons _ _ ih1 ih2 => omega
  | last _ ih => exact ih
  | alt _ _ ih1 ih2 => omega
  | _ => exact Nat.le_refl _

def NoMult (t : List Nat) : Prop := ∀ c v, t = c :: v → isMult c = false

/-- No text of the grammar starts with an operator. -/
theorem Syn.front {k : Kind} {t : List Nat} {r : Rx} {n m : Nat} (h : Syn k t r n m) :
    match k with
    | .atom => ∃ c v, t = c :: v ∧ isMult c = false
    | .piece => ∃ c v, t = c :: v ∧ isMult c = false
    | _ => NoMult t := by
  induction h with
  | bol => exact ⟨_, _, rfl, rfl⟩
  | eol => exact ⟨_, _, rfl, rfl⟩
  | any => exact ⟨_, _, rfl, rfl⟩
  | chr hc => exact ⟨_, _, rfl, notSpecial_mult hc⟩
  | escaped => exact ⟨_, _, rfl, rfl⟩
  | set _ _ => exact ⟨_, _, rfl, rfl⟩
  | notSet _ => exact ⟨_, _, rfl, rfl⟩
  | group _ _ _ => exact ⟨_, _, rfl, rfl⟩
  | one _ ih => exact ih
  | star _ _ ih => obtain ⟨c, v, rfl, hc⟩ := ih; exact ⟨c, v ++ [42], rfl, hc⟩
  | plus _ _ ih => obtain ⟨c, v, rfl, hc⟩ := ih; exact ⟨c, v ++ [43], rfl, hc⟩
  | opt _ ih => obtain ⟨c, v, rfl, hc⟩ := ih; exact ⟨c, v ++ [63], rfl, hc⟩
  | empty => intro c v h; cases h
  | cons _ _ ih1 _ =>
    obtain ⟨c, v, rfl, hc⟩ := ih1
    intro d w hd; cases hd; exact hc
  | last _ ih => exact ih
  | alt _ _ ih1 _ =>
    rename_i s t a b n m k _ _ _
    intro c v h
    cases s with
    | nil => simp at h; rw [← h.1]; rfl
    | cons d s => simp at h; exact ih1 c s (by rw [h.1])

theorem Stop.noMult {t : List Nat} (h : Stop t) : NoMult t := by
  rcases h with rfl | ⟨c, v, rfl, rfl | rfl⟩
  · intro c v h; cases h
  · intro c v h; cases h; rfl
  · intro c v h; cases h; rfl

theorem NoMult.append {s t : List Nat} (hs : NoMult s) (ht : NoMult t) : NoMult (s ++ t) := by
  intro c v h
  cases s with
  | nil => exact ht c v h
  | cons d s => simp at h; exact hs c s (by rw [h.1])

/-- How the text of a piece that is not a single ordinary character begins. -/
def Front (x : List Nat) : Prop :=
  (∃ c v, x = c :: v ∧ isMeta c = true ∧ isMult c = false ∧ c ≠ 124 ∧ c ≠ 41) ∨ (∃ c op, x = [c, op] ∧ c ∉ special ∧ isMult op = true)

/-- A run of ordinary characters before such a piece, or before the end of a branch, is taken exactly. -/
theorem runLength_run {w t : List Nat} (hw : ∀ c ∈ w, c ∉ special) (hne : w ≠ [])
    (ht : t = [] ∨ (∃ c v, t = c :: v ∧ isMeta c = true ∧ isMult c = false) ∨ (∃ c op v, t = c :: op :: v ∧ c ∉ special ∧ isMult op = true)) :
    runLength (w ++ t) = w.length := by
  have htw : ∀ t, (w ++ t).takeWhile (fun c => !isMeta c) = w ++ t.takeWhile (fun c => !isMeta c) := by
    intro t
    rw [List.takeWhile_append_of_pos]
    intro c hc; simpa using isMeta_false.mpr (hw c hc)
  simp only [runLength, htw]
  rcases ht with rfl | ⟨c, v, rfl, h1, h2⟩ | ⟨c, op, v, rfl, h1, h2⟩
  · simp
  · simp [List.takeWhile_cons, h1, h2]
  · have hm := isMult_meta h2
    have hc := isMeta_false.mpr h1
    have hl := List.length_pos_iff.mpr hne
    simp [List.takeWhile_cons, hc, hm, h2, hl]

/-- The parser's step on a run. -/
theorem pPiece_run {preg} {w t : List Nat} (np : Nat) (hw : ∀ c ∈ w, c ∉ special) (hne : w ≠ []) (hm : NoMult t)
    (hr : runLength (w ++ t) = w.length) : pPiece preg (w ++ t) np = some (.lit w, t, np) := by
  have ha : pAtom preg (w ++ t) np = some (.lit w, t, np) := by
    cases w with
    | nil => exact absurd rfl hne
    | cons c w =>
      have hc := notSpecial (hw c (by simp))
      have hm := notSpecial_mult (hw c (by simp))
      rw [List.cons_append] at hr
      simp only [pAtom, List.cons_append]
      rw [if_neg hc.1, if_neg hc.2.1, if_neg hc.2.2.1, if_neg hc.2.2.2.1, if_neg hc.2.2.2.2.1, if_neg (by omega), if_neg (by simp [hm]), if_neg (by omega), hr, if_neg (by simp)]
      simp
  simp only [pPiece, ha]
  cases t with
  | nil => rfl
  | cons d t => simp [hm d t rfl]

/-- What completeness says, by kind. -/
def Comp : Kind → List Nat → Rx → Nat → Nat → Prop
  | .atom, x, rx, n, m => (∃ c, c ∉ special ∧ x = [c] ∧ rx = .chr c ∧ m = n) ∨
      (Front x ∧ ∀ N, 11 ≤ N + n → ∀ t, ∃ r, pAtom (pGroup N) (x ++ t) n = some (r, t, m) ∧ Same r rx)
  | .piece, x, rx, n, m => (∃ c, c ∉ special ∧ x = [c] ∧ rx = .chr c ∧ m = n) ∨
      (Front x ∧ ∀ N, 11 ≤ N + n → ∀ t, NoMult t → ∃ r, pPiece (pGroup N) (x ++ t) n = some (r, t, m) ∧ Same r rx)
  | .branch, x, rx, n, m => ∀ N, 11 ≤ N + n → ∀ w, (∀ c ∈ w, c ∉ special) → ∀ t, Stop t → ∀ acc fuel, (w ++ x).length < fuel →
      ∃ acc', pPieces (pGroup N) fuel acc (w ++ x ++ t) n = some (acc', t, m) ∧
        (∀ k u, outsO k acc' u = andThen (andThen (outsO k acc u) (outs k (.lit w))) (outs k rx.toRe)) ∧
        widthO acc' = (widthO acc || decide (w ≠ []) || rx.toRe.width)
  | .expr, x, rx, n, m => ∀ N, 11 ≤ N + n → ∀ t, StopG t →
      (∃ r, pAll (pGroup N) (x ++ t) n = some (r, t, m) ∧ Same r rx) ∧
      (∀ acc fuel, AltChain acc → (124 :: x).length < fuel → ∃ r, pAlts (pGroup N) fuel acc (124 :: x ++ t) n = some (r, t, m) ∧
        (∀ k u, outs k r u = outs k acc u ++ outs k rx.toRe u) ∧ r.width = (acc.width && rx.toRe.width))

/-- The parser's step on a piece with an operator. -/
theorem pPiece_quant {preg} {x t t' : List Nat} {np np' op : Nat} {r : Re} (hm : isMult op = true) (ha : pAtom preg (x ++ op :: t) np = some (r, op :: t, np'))
    (hw : op ≠ 63 → r.width = true) (ht : NoMult t) (e : t' = x ++ op :: t) : pPiece preg t' np = some (quant op r, t, np') := by
  subst e
  simp only [pPiece, ha, hm]
  rw [if_neg (by simp), if_neg (by intro h; have := hw h.2; rw [h.1] at this; cases this)]
  cases t with
  | nil => rfl
  | cons c t => simp [ht c t rfl]

theorem comp_quant {x : List Nat} {rx : Rx} {n m op : Nat} {q : Rx} (hop : isMult op = true) (hn : op ≠ 63 → ¬ rx.Nullable)
    (hq : ∀ r, Same r rx → Same (quant op r) q) (h : Comp .atom x rx n m) : Comp .piece (x ++ [op]) q n m := by
  right
  rcases h with ⟨c, hc, rfl, rfl, rfl⟩ | ⟨hf, h⟩
  · refine ⟨Or.inr ⟨c, op, rfl, hc, hop⟩, fun N hN t ht => ?_⟩
    have hcs := notSpecial hc
    have hmc := notSpecial_mult hc
    have hrl : runLength (c :: op :: t) = 1 := by
      have hm := isMult_meta hop
      have hc' := isMeta_false.mpr hc
      simp [runLength, List.takeWhile_cons, hc', hm]
    have ha : pAtom (pGroup N) ([c] ++ op :: t) m = some (.lit [c], op :: t, m) := by
      simp only [pAtom, List.cons_append, List.nil_append]
      rw [if_neg hcs.1, if_neg hcs.2.1, if_neg hcs.2.2.1, if_neg hcs.2.2.2.1, if_neg hcs.2.2.2.2.1, if_neg (by omega), if_neg (by simp [hmc]), if_neg (by omega), hrl, if_neg (by simp)]
      simp
    exact ⟨_, pPiece_quant hop ha (fun _ => rfl) ht (by simp), hq _ ⟨fun _ _ => rfl, rfl⟩⟩
  · refine ⟨?_, fun N hN t ht => ?_⟩
    · rcases hf with ⟨c, v, rfl, h1, h2, h3, h4⟩ | ⟨c, op', rfl, h1, h2⟩
      · exact Or.inl ⟨c, v ++ [op], rfl, h1, h2, h3, h4⟩
      · exfalso
        obtain ⟨r, hr, -⟩ := h 11 (by omega) [42]
        have hcs := notSpecial h1
        have hmc := notSpecial_mult h1
        have hm := isMult_meta h2
        have hc' := isMeta_false.mpr h1
        have hrl : runLength ([c, op'] ++ [42]) = 1 := by simp [runLength, List.takeWhile_cons, hc', hm]
        have : pAtom (pGroup 11) ([c, op'] ++ [42]) n = some (.lit [c], [op', 42], n) := by
          simp only [List.cons_append, List.nil_append] at hrl
          simp only [pAtom, List.cons_append, List.nil_append]
          rw [if_neg hcs.1, if_neg hcs.2.1, if_neg hcs.2.2.1, if_neg hcs.2.2.2.1, if_neg hcs.2.2.2.2.1, if_neg (by omega), if_neg (by simp [hmc]), if_neg (by omega), hrl, if_neg (by simp)]
          simp
        rw [this] at hr
        simp at hr
    · obtain ⟨r, hr, hs⟩ := h N hN (op :: t)
      refine ⟨_, pPiece_quant hop hr ?_ ht (by simp), hq _ hs⟩
      intro ho
      rw [hs.width]
      cases hw : rx.toRe.width with
      | true => rfl
      | false => exact absurd (width_iff.mp hw) (hn ho)

theorem pPieces_stop {preg} {t : List Nat} (h : Stop t) (fuel : Nat) (acc : Option Re) (np : Nat) : pPieces preg (fuel + 1) acc t np = some (acc, t, np) := by
  rcases h with rfl | ⟨c, v, rfl, rfl | rfl⟩ <;> simp [pPieces]

theorem pPieces_step {preg} {c : Nat} {t t' : List Nat} {q : Re} {np np' : Nat} (h1 : c ≠ 124) (h2 : c ≠ 41)
    (h : pPiece preg (c :: t) np = some (q, t', np')) (fuel : Nat) (acc : Option Re) :
    pPieces preg (fuel + 1) acc (c :: t) np = pPieces preg fuel (some (joinP acc q)) t' np' := by
  simp only [pPieces]
  rw [if_neg (by omega), h]

/-- The parser's loop on a run. -/
theorem pPieces_run {preg} {w t : List Nat} (np : Nat) (hw : ∀ c ∈ w, c ∉ special) (hne : w ≠ []) (hm : NoMult t)
    (hr : runLength (w ++ t) = w.length) (fuel : Nat) (acc : Option Re) :
    pPieces preg (fuel + 1) acc (w ++ t) np = pPieces preg fuel (some (joinP acc (.lit w))) t np := by
  have h := pPiece_run (preg := preg) np hw hne hm hr
  cases w with
  | nil => exact absurd rfl hne
  | cons c w =>
    have hc := notSpecial (hw c (by simp))
    exact pPieces_step hc.2.2.2.2.2.2.1 hc.2.2.2.2.2.1 h fuel acc

theorem pAlts_bar {preg} (fuel : Nat) (acc : Re) (t : List Nat) (np : Nat) : pAlts preg (fuel + 1) acc (124 :: t) np =
    match pBranch preg t np with
    | none => none
    | some (b, t'', np') => pAlts preg fuel (snocAlt acc b) t'' np' := rfl

theorem syn_comp {k : Kind} {x : List Nat} {rx : Rx} {n m : Nat} (h : Syn k x rx n m) : Comp k x rx n m := by
  induction h with
  | bol => exact Or.inr ⟨Or.inl ⟨94, [], rfl, rfl, rfl, by omega, by omega⟩, fun N _ t => ⟨.bol, by simp [pAtom], ⟨fun _ _ => rfl, rfl⟩⟩⟩
  | eol => exact Or.inr ⟨Or.inl ⟨36, [], rfl, rfl, rfl, by omega, by omega⟩, fun N _ t => ⟨.eol, by simp [pAtom], ⟨fun _ _ => rfl, rfl⟩⟩⟩
  | any => exact Or.inr ⟨Or.inl ⟨46, [], rfl, rfl, rfl, by omega, by omega⟩, fun N _ t => ⟨.any, by simp [pAtom], ⟨fun _ _ => rfl, rfl⟩⟩⟩
  | chr hc => exact Or.inl ⟨_, hc, rfl, rfl, rfl⟩
  | escaped =>
    rename_i c n
    refine Or.inr ⟨Or.inl ⟨92, [c], rfl, rfl, rfl, by omega, by omega⟩, fun N _ t => ⟨.lit [c], ?_, ⟨fun _ _ => rfl, rfl⟩⟩⟩
    simp [pAtom, isMult]
  | set hh hc =>
    rename_i t l n
    refine Or.inr ⟨Or.inl ⟨91, _, rfl, rfl, rfl, by omega, by omega⟩, fun N _ t => ?_⟩
    obtain ⟨cs, h1, h2⟩ := classBody_complete hc false (fun _ => hh) t
    simp only [Bool.false_eq_true, if_false, List.nil_append] at h1
    exact ⟨.set false cs, by simp [pAtom, h1], h2⟩
  | notSet hc =>
    rename_i t l n
    refine Or.inr ⟨Or.inl ⟨91, _, rfl, rfl, rfl, by omega, by omega⟩, fun N _ t => ?_⟩
    obtain ⟨cs, h1, h2⟩ := classBody_complete hc true (by simp) t
    simp only [if_true, List.cons_append, List.nil_append] at h1
    exact ⟨.set true cs, by simp [pAtom, h1], h2⟩
  | group hn hs ih =>
    rename_i t r n m
    refine Or.inr ⟨Or.inl ⟨40, t ++ [41], rfl, rfl, rfl, by omega, by omega⟩, fun N hN v => ?_⟩
    obtain ⟨N, rfl⟩ : ∃ k, N = k + 1 := ⟨N - 1, by omega⟩
    obtain ⟨⟨q, hq, hqs⟩, -⟩ := ih N (by omega) (41 :: v) (Or.inr ⟨v, rfl⟩)
    refine ⟨.group n q, ?_, ⟨fun k u => ?_, hqs.width⟩⟩
    · have : pGroup (N + 1) (t ++ 41 :: v) n = some (.group n q, v, m) := by
        simp only [pGroup]
        rw [if_neg (by omega), hq]; rfl
      simp [pAtom, this]
    · simp only [outs, Rx.toRe, hqs.outs]
  | one _ ih =>
    rcases ih with h | ⟨hf, h⟩
    · exact Or.inl h
    · refine Or.inr ⟨hf, fun N hN t ht => ?_⟩
      obtain ⟨r, hr, hs⟩ := h N hN t
      refine ⟨r, ?_, hs⟩
      simp only [pPiece, hr]
      cases t with
      | nil => rfl
      | cons c t => simp [ht c t rfl]
  | star _ hn ih => exact comp_quant rfl (fun _ => hn) (fun r hs => star_same hs) ih
  | plus _ hn ih => exact comp_quant rfl (fun _ => hn) (fun r hs => plus_same hs) ih
  | opt _ ih => exact comp_quant rfl (fun h => absurd rfl h) (fun r hs => opt_same hs) ih
  | empty =>
    rename_i n
    intro N hN w hw t ht acc fuel hf
    obtain ⟨fuel, rfl⟩ : ∃ k, fuel = k + 1 := ⟨fuel - 1, by omega⟩
    by_cases hne : w = []
    · subst hne
      refine ⟨acc, pPieces_stop ht fuel acc n, fun k u => ?_, by simp [Rx.toRe, width]⟩
      have e1 : outs k (.lit []) = fun u => [(u, [])] := funext (outs_lit_nil k)
      have e2 : outs k Rx.eps.toRe = fun u => [(u, [])] := rfl
      rw [e1, e2, andThen_id, andThen_id]
    · obtain ⟨fuel, rfl⟩ : ∃ k, fuel = k + 1 := ⟨fuel - 1, by
        have := List.length_pos_iff.mpr hne
        simp at hf; omega⟩
      refine ⟨some (joinP acc (.lit w)), ?_, fun k u => ?_, ?_⟩
      · rw [List.append_nil, pPieces_run n hw hne ht.noMult ?_, pPieces_stop ht]
        refine runLength_run hw hne ?_
        rcases ht with rfl | ⟨c, v, rfl, rfl | rfl⟩
        · exact Or.inl rfl
        · exact Or.inr (Or.inl ⟨_, _, rfl, rfl, rfl⟩)
        · exact Or.inr (Or.inl ⟨_, _, rfl, rfl, rfl⟩)
      · have e2 : outs k Rx.eps.toRe = fun u => [(u, [])] := rfl
        rw [e2, andThen_id]; exact outs_joinP _ _ _ _
      · show (joinP acc (.lit w)).width = _
        rw [width_joinP]; simp [width, hne]
  | cons hp hb ihp ihb =>
    rename_i s y a b n m k
    intro N hN w hw t ht acc fuel hf
    have hle := hp.le
    rcases ihp with ⟨c, hc, rfl, rfl, rfl⟩ | ⟨hfr, hpc⟩
    · have hw' : ∀ d ∈ w ++ [c], d ∉ special := by
        intro d hd; simp at hd; rcases hd with hd | rfl
        · exact hw d hd
        · exact hc
      obtain ⟨acc', h1, h2, h3⟩ := ihb N (by omega) (w ++ [c]) hw' t ht acc fuel (by simpa using hf)
      refine ⟨acc', by simpa using h1, fun k u => ?_, ?_⟩
      · rw [h2]
        have e : outs k (.lit (w ++ [c])) = fun v => andThen (outs k (.lit w) v) (outs k (.lit [c])) := funext (outs_lit_append k w [c])
        rw [e, ← andThen_assoc, andThen_assoc _ (outs k (.lit [c]))]
        rfl
      · rw [h3]; simp [Rx.toRe, width]
    · have hnm : NoMult (y ++ t) := NoMult.append hb.front ht.noMult
      obtain ⟨q, hq, hqs⟩ := hpc N hN (y ++ t) hnm
      have hsne : ∃ c v, s = c :: v ∧ c ≠ 124 ∧ c ≠ 41 := by
        rcases hfr with ⟨c, v, rfl, -, -, h1, h2⟩ | ⟨c, op, rfl, h1, -⟩
        · exact ⟨c, v, rfl, h1, h2⟩
        · have := notSpecial h1; exact ⟨c, [op], rfl, by omega, by omega⟩
      obtain ⟨c, v, rfl, hc1, hc2⟩ := hsne
      have hcv : ∀ fuel acc, pPieces (pGroup N) (fuel + 1) acc (c :: v ++ (y ++ t)) n = pPieces (pGroup N) fuel (some (joinP acc q)) (y ++ t) m :=
        fun fuel acc => pPieces_step hc1 hc2 hq fuel acc
      obtain ⟨fuel, rfl⟩ : ∃ k, fuel = k + 1 := ⟨fuel - 1, by omega⟩
      by_cases hne : w = []
      · subst hne
        obtain ⟨acc', h1, h2, h3⟩ := ihb N (by omega) [] (by simp) t ht (some (joinP acc q)) fuel (by simp at hf ⊢; omega)
        refine ⟨acc', ?_, fun k u => ?_, ?_⟩
        · rw [show [] ++ (c :: v ++ y) ++ t = c :: v ++ (y ++ t) by simp, hcv]; simpa using h1
        · rw [h2]
          have e1 : outs k (.lit []) = fun u => [(u, [])] := funext (outs_lit_nil k)
          rw [e1, andThen_id, andThen_id]
          show andThen (outs k (joinP acc q) u) _ = _
          rw [outs_joinP, andThen_assoc]
          refine andThen_congr (fun p _ => ?_)
          rw [hqs.outs]; rfl
        · rw [h3]
          show ((joinP acc q).width || _ || _) = _
          rw [width_joinP, hqs.width]; simp [Rx.toRe, width, Bool.or_assoc]
      · obtain ⟨fuel, rfl⟩ : ∃ k, fuel = k + 1 := ⟨fuel - 1, by
          have := List.length_pos_iff.mpr hne
          simp at hf; omega⟩
        have hwl := List.length_pos_iff.mpr hne
        obtain ⟨acc', h1, h2, h3⟩ := ihb N (by omega) [] (by simp) t ht (some (joinP (some (joinP acc (.lit w))) q)) fuel (by simp at hf ⊢; omega)
        refine ⟨acc', ?_, fun k u => ?_, ?_⟩
        · rw [show w ++ (c :: v ++ y) ++ t = w ++ (c :: v ++ (y ++ t)) by simp]
          rw [pPieces_run n hw hne ?_ ?_, hcv]
          · simpa using h1
          · refine NoMult.append ?_ hnm
            exact fun d v' he => by
              have := hp.front
              obtain ⟨d', v'', h1, h2⟩ := this
              rw [he] at h1; cases h1; exact h2
          · refine runLength_run hw hne (Or.inr ?_)
            rcases hfr with ⟨c', v', he, g1, g2, -, -⟩ | ⟨c', op, he, g1, g2⟩
            · cases he; exact Or.inl ⟨c, _, rfl, g1, g2⟩
            · cases he; exact Or.inr ⟨c, op, _, rfl, g1, g2⟩
        · rw [h2]
          have e1 : outs k (.lit []) = fun u => [(u, [])] := funext (outs_lit_nil k)
          rw [e1, andThen_id]
          show andThen (outs k (joinP (some (joinP acc (.lit w))) q) u) _ = _
          rw [outs_joinP, show outsO k (some (joinP acc (.lit w))) u = outs k (joinP acc (.lit w)) u from rfl, outs_joinP, andThen_assoc _ (outs k q)]
          refine andThen_congr (fun p _ => ?_)
          rw [hqs.outs]; rfl
        · rw [h3]
          show ((joinP (some (joinP acc (.lit w))) q).width || _ || _) = _
          rw [width_joinP, show widthO (some (joinP acc (.lit w))) = (joinP acc (.lit w)).width from rfl, width_joinP, hqs.width]
          simp [Rx.toRe, width, hne]
  | last hb ih =>
    rename_i x b n m
    intro N hN t ht
    have hst : Stop t := by
      rcases ht with rfl | ⟨v, rfl⟩
      · exact Or.inl rfl
      · exact Or.inr ⟨41, v, rfl, Or.inr rfl⟩
    have halts : ∀ fuel acc, pAlts (pGroup N) (fuel + 1) acc t m = some (acc, t, m) := by
      intro fuel acc
      rcases ht with rfl | ⟨v, rfl⟩ <;> simp [pAlts]
    have hbr : ∃ r, pBranch (pGroup N) (x ++ t) n = some (r, t, m) ∧ Same r b := by
      obtain ⟨acc', h1, h2, h3⟩ := ih N hN [] (by simp) t hst none ((x ++ t).length + 1) (by simp; omega)
      refine ⟨acc'.getD .nothing, by simp only [pBranch]; simp only [List.nil_append] at h1; rw [h1], ⟨fun k u => ?_, ?_⟩⟩
      · have := h2 k u
        rw [show outsO k none u = [(u, [])] from rfl, andThen_one, outs_lit_nil, andThen_one] at this
        rw [← this]; cases acc' <;> rfl
      · have : widthO acc' = b.toRe.width := by simpa [widthO] using h3
        rw [← this]; cases acc' <;> rfl
    obtain ⟨r, hr, hs⟩ := hbr
    refine ⟨⟨.last r, ?_, ⟨fun k u => hs.outs k u, hs.width⟩⟩, fun acc fuel hc hf => ?_⟩
    · simp only [pAll, hr]; exact halts _ _
    · obtain ⟨fuel, rfl⟩ : ∃ k, fuel = k + 1 + 1 := ⟨fuel - 2, by simp at hf; omega⟩
      obtain ⟨s1, s2, s3⟩ := snocAlt_sem (b := r) hc
      refine ⟨snocAlt acc r, ?_, fun k u => ?_, ?_⟩
      · rw [List.cons_append, pAlts_bar, hr]; exact halts _ _
      · rw [s2, hs.outs]
      · rw [s3, hs.width]
  | alt hb he ihb ihe =>
    rename_i s y a b n m k
    intro N hN t ht
    have hle := hb.le
    have hst : Stop (124 :: y ++ t) := Or.inr ⟨124, _, rfl, Or.inl rfl⟩
    have hbr : ∃ r, pBranch (pGroup N) (s ++ 124 :: y ++ t) n = some (r, 124 :: y ++ t, m) ∧ Same r a := by
      obtain ⟨acc', h1, h2, h3⟩ := ihb N hN [] (by simp) (124 :: y ++ t) hst none ((s ++ 124 :: y ++ t).length + 1) (by simp; omega)
      refine ⟨acc'.getD .nothing, by simp only [pBranch]; simp only [List.nil_append, List.append_assoc] at h1 ⊢; rw [h1], ⟨fun k u => ?_, ?_⟩⟩
      · have := h2 k u
        rw [show outsO k none u = [(u, [])] from rfl, andThen_one, outs_lit_nil, andThen_one] at this
        rw [← this]; cases acc' <;> rfl
      · have : widthO acc' = a.toRe.width := by simpa [widthO] using h3
        rw [← this]; cases acc' <;> rfl
    obtain ⟨r, hr, hs⟩ := hbr
    obtain ⟨-, hal⟩ := ihe N (by omega) t ht
    refine ⟨?_, fun acc fuel hc hf => ?_⟩
    · obtain ⟨q, h1, h2, h3⟩ := hal (.last r) ((124 :: y ++ t).length + 1) trivial (by simp; omega)
      refine ⟨q, by simp only [pAll, hr]; exact h1, ⟨fun k u => ?_, ?_⟩⟩
      · rw [h2]; show outs k r u ++ _ = _; rw [hs.outs]; rfl
      · rw [h3]; show (r.width && _) = _; rw [hs.width]; rfl
    · obtain ⟨fuel, rfl⟩ : ∃ k, fuel = k + 1 := ⟨fuel - 1, by omega⟩
      obtain ⟨s1, s2, s3⟩ := snocAlt_sem (b := r) hc
      obtain ⟨q, h1, h2, h3⟩ := hal (snocAlt acc r) fuel s1 (by simp at hf ⊢; omega)
      refine ⟨q, ?_, fun k u => ?_, ?_⟩
      · rw [List.cons_append, pAlts_bar, hr]; exact h1
      · rw [h2, s2, hs.outs, List.append_assoc]; rfl
      · rw [h3, s3, hs.width]; simp [Rx.toRe, width, Bool.and_assoc]

/-- The parser accepts every regular expression, with the same ways to match. -/
theorem parse_complete {exp : List Nat} {e : Rx} (h : IsRegex exp e) : ∃ r, parse exp = some r ∧ Same r e := by
  obtain ⟨m, h⟩ := h
  obtain ⟨⟨r, hr, hs⟩, -⟩ := syn_comp h 10 (by omega) [] (Or.inl rfl)
  exact ⟨r, by simp only [parse]; rw [List.append_nil] at hr; rw [hr], hs⟩

end Vital.Regex
