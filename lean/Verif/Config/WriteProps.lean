import Verif.Config.Write
import Verif.Config.ParserIncl
/-
  Properties of writing config blocks (C26, C27, C28).
-/
namespace Vital.Config
open Vital Vital.Tokenize

/-! ### C28: comments -/

/-- Lines as text. -/
def unlines (ls : List Str) : Str := (ls.map (· ++ ['\n'])).flatten

theorem unlines_append (a b : List Str) : unlines (a ++ b) = unlines a ++ unlines b := by simp [unlines]

theorem unlines_cons (l : Str) (ls : List Str) : unlines (l :: ls) = l ++ ['\n'] ++ unlines ls := by simp [unlines]

/-- The words of a text: it is cut at spaces and newlines, empty pieces are dropped. -/
def wordsOf (s : Str) : List Str := (pieces (c!" \n") s).filter (fun p => decide (p ≠ []))

theorem pieces_append (d a : Str) (c : Char) (b : Str) (hc : d.contains c = true) : pieces d (a ++ c :: b) = pieces d a ++ pieces d b := by
  induction a with
  | nil => simp only [List.nil_append, pieces]; rw [if_pos hc]; rfl
  | cons x a ih =>
    simp only [List.cons_append, pieces]
    by_cases hx : d.contains x = true
    · rw [if_pos hx, if_pos hx, ih]; rfl
    · rw [if_neg hx, if_neg hx, ih]
      cases hp : pieces d a with
      | nil => exact absurd hp (pieces_ne_nil d a)
      | cons p ps => rfl

theorem pieces_none (d a : Str) (h : ∀ c ∈ a, c ∉ d) : pieces d a = [a] := by
  induction a with
  | nil => rfl
  | cons x a ih =>
    have hx : ¬ d.contains x = true := by simpa using h x (by simp)
    simp only [pieces]
    rw [if_neg hx, ih (fun c hc => h c (by simp [hc]))]

theorem wordsOf_append (a : Str) (c : Char) (b : Str) (hc : c = ' ' ∨ c = '\n') : wordsOf (a ++ c :: b) = wordsOf a ++ wordsOf b := by
  unfold wordsOf
  rw [pieces_append _ _ _ _ (by rcases hc with rfl | rfl <;> decide), List.filter_append]

theorem wordsOf_word (w : Str) (h1 : w ≠ []) (h2 : ' ' ∉ w) (h3 : '\n' ∉ w) : wordsOf w = [w] := by
  unfold wordsOf
  rw [pieces_none]
  · simp [h1]
  · intro c hc hm
    simp only [List.mem_cons, List.not_mem_nil, or_false] at hm
    rcases hm with rfl | rfl
    · exact h2 hc
    · exact h3 hc

theorem wordsOf_spaces (a : Str) (n : Nat) (hn : 1 ≤ n) (w : Str) (h1 : w ≠ []) (h2 : ' ' ∉ w) (h3 : '\n' ∉ w) :
    wordsOf (a ++ (List.replicate n ' ' ++ w)) = wordsOf a ++ [w] := by
  induction n generalizing a with
  | zero => omega
  | succ n ih =>
    simp only [List.replicate_succ, List.cons_append]
    cases n with
    | zero => rw [wordsOf_append _ _ _ (.inl rfl)]; simp [wordsOf_word w h1 h2 h3]
    | succ n =>
      have := ih (a ++ [' ']) (by omega)
      rw [List.append_assoc, List.singleton_append] at this
      rw [this, wordsOf_append a ' ' [] (.inl rfl)]
      simp [wordsOf, pieces]

theorem pieces_two (d : Str) : pieces (c!" \n") d = (pieces (c!"\n") d).flatMap (pieces (c!" ")) := by
  induction d with
  | nil => rfl
  | cons c s ih =>
    cases hp : pieces (c!"\n") s with
    | nil => exact absurd hp (pieces_ne_nil _ s)
    | cons p ps =>
      rw [hp, List.flatMap_cons] at ih
      simp only [pieces]
      by_cases h1 : c = '\n'
      · subst h1
        rw [if_pos (by decide), if_pos (by decide), ih, hp]
        simp [pieces]
      · by_cases h2 : c = ' '
        · subst h2
          rw [if_pos (by decide), if_neg (by decide), ih, hp]
          simp only [List.flatMap_cons, pieces]
          rw [if_pos (by decide)]; rfl
        · rw [if_neg (by simp [h1, h2]), if_neg (by simp [h1]), ih, hp]
          simp only [List.flatMap_cons, pieces]
          rw [if_neg (by simp [h2])]
          cases hq : pieces (c!" ") p with
          | nil => exact absurd hq (pieces_ne_nil _ p)
          | cons q qs => rfl

/-- A line of a comment. -/
structure CommentLine (l : Str) : Prop where
  hash : l.head? = some '#'
  oneLine : '\n' ∉ l
  noTrail : l.getLast? ≠ some ' '
  width : l.length ≤ 80 ∨ ∃ w, l = c!"# " ++ w ∧ ' ' ∉ w

theorem last_append_ne {a b : Str} (hb : b ≠ []) : (a ++ b).getLast? = b.getLast? := by
  rw [List.getLast?_append]
  cases h : b.getLast? with
  | none => exact absurd (List.getLast?_eq_none_iff.1 h) hb
  | some x => rfl

theorem wordLoop_lines : ∀ (ws : List Str) (buf : Str) (sp : Nat) (out : Str), CommentLine buf → 1 ≤ sp →
    (∀ w ∈ ws, ' ' ∉ w ∧ '\n' ∉ w) →
    ∃ ls, wordLoop ws buf sp out = out ++ unlines ls ∧ ls ≠ [] ∧ (∀ l ∈ ls, CommentLine l) ∧
      ls.flatMap (fun l => wordsOf (l.drop 1)) = wordsOf (buf.drop 1) ++ ws.filter (fun p => decide (p ≠ [])) := by
  intro ws
  induction ws with
  | nil =>
    intro buf sp out hb _ _
    refine ⟨[buf], ?_, by simp, by simpa using hb, by simp⟩
    have : 0 < buf.length := by
      have := hb.hash
      cases buf with
      | nil => simp at this
      | cons => simp
    simp [wordLoop, this, unlines]
  | cons w ws ih =>
    intro buf sp out hb hsp hw
    obtain ⟨hw1, hw2⟩ := hw w (by simp)
    have hws : ∀ x ∈ ws, ' ' ∉ x ∧ '\n' ∉ x := fun x hx => hw x (by simp [hx])
    unfold wordLoop
    by_cases h0 : w.length = 0
    · rw [if_pos h0]
      have : w = [] := List.length_eq_zero_iff.1 h0
      subst this
      obtain ⟨ls, e1, e2, e3, e4⟩ := ih buf (sp + 1) out hb (by omega) hws
      exact ⟨ls, e1, e2, e3, by simpa using e4⟩
    · rw [if_neg h0]
      have hne : w ≠ [] := fun h => h0 (by simp [h])
      have hlast : w.getLast? ≠ some ' ' := fun h => hw1 (List.mem_of_getLast? h)
      by_cases h1 : 80 < buf.length + sp + w.length
      · rw [if_pos h1]
        have hb' : CommentLine (c!"#" ++ (List.replicate 1 ' ' ++ w)) := by
          refine ⟨rfl, by simp [hw2], ?_, .inr ⟨w, by simp, hw1⟩⟩
          rw [last_append_ne (by simp), last_append_ne hne]; exact hlast
        obtain ⟨ls, e1, e2, e3, e4⟩ := ih _ 1 (out ++ buf ++ c!"\n") hb' (by omega) hws
        refine ⟨buf :: ls, by rw [e1]; simp [unlines_cons], by simp, ?_, ?_⟩
        · intro l hl
          rcases List.mem_cons.1 hl with rfl | hl
          · exact hb
          · exact e3 l hl
        · rw [List.flatMap_cons, e4]
          have := wordsOf_spaces [] 1 (by omega) w hne hw1 hw2
          simp only [List.nil_append] at this
          simp only [List.cons_append, List.nil_append, List.drop_succ_cons, List.drop_zero]
          rw [this]
          simp [hne, wordsOf, pieces]
      · rw [if_neg h1]
        have hb' : CommentLine (buf ++ (List.replicate sp ' ' ++ w)) := by
          refine ⟨?_, ?_, ?_, .inl (by simp; omega)⟩
          · rw [List.head?_append, hb.hash]; rfl
          · simp only [List.mem_append, not_or]
            refine ⟨hb.oneLine, ?_, hw2⟩
            intro hm; rw [List.mem_replicate] at hm; exact absurd hm.2 (by decide)
          · rw [last_append_ne (by simp [hne]), last_append_ne hne]; exact hlast
        obtain ⟨ls, e1, e2, e3, e4⟩ := ih _ 1 out hb' (by omega) hws
        refine ⟨ls, e1, e2, e3, ?_⟩
        rw [e4]
        have hbn : buf ≠ [] := by intro h; have := hb.hash; simp [h] at this
        obtain ⟨x, buf', rfl⟩ := List.exists_cons_of_ne_nil hbn
        simp only [List.cons_append, List.drop_succ_cons, List.drop_zero]
        rw [wordsOf_spaces buf' sp hsp w hne hw1 hw2]
        simp [hne]

theorem comment_blocks : ∀ (bs : List Str) (out : Str), (∀ p ∈ bs, '\n' ∉ p) →
    ∃ ls, bs.foldl (fun out blk => wordLoop (tokenize blk [] (c!" ") false) (c!"#") 1 out) out = out ++ unlines ls ∧
      bs.length ≤ ls.length ∧ (∀ l ∈ ls, CommentLine l) ∧
      ls.flatMap (fun l => wordsOf (l.drop 1)) = (bs.flatMap (pieces (c!" "))).filter (fun p => decide (p ≠ [])) := by
  intro bs
  induction bs with
  | nil => intro out _; exact ⟨[], by simp [unlines], by simp, by simp, by simp⟩
  | cons p bs ih =>
    intro out hp
    have ht : tokenize p [] (c!" ") false = pieces (c!" ") p := by rw [tokenize_eq]; simp [keep]
    have hh : CommentLine (c!"#") := ⟨rfl, by decide, by decide, .inl (by decide)⟩
    obtain ⟨ls, e1, e2, e3, e4⟩ := wordLoop_lines (pieces (c!" ") p) (c!"#") 1 out hh (by omega) (by
      intro w hw
      have h3 := (pieces_interleave (c!" ") p).2.2 w hw
      refine ⟨fun h => h3 _ h (by simp), fun h => hp p (by simp) ?_⟩
      rw [← (pieces_interleave (c!" ") p).1]
      clear h3
      generalize p.filter (c!" ").contains = ds
      revert ds hw
      generalize pieces (c!" ") p = ps
      intro hw ds
      induction ps generalizing ds with
      | nil => simp at hw
      | cons q ps ih2 =>
        cases ps with
        | nil => simp at hw; subst hw; simpa [interleave] using h
        | cons r ps =>
          rcases List.mem_cons.1 hw with rfl | hw
          · cases ds <;> simp [interleave, h]
          · cases ds with
            | nil => simp only [interleave, List.mem_append]; right; exact ih2 hw []
            | cons d ds => simp only [interleave, List.mem_append, List.mem_cons]; right; right; exact ih2 hw ds)
    obtain ⟨ls', f1, f2, f3, f4⟩ := ih (out ++ unlines ls) (fun q hq => hp q (by simp [hq]))
    refine ⟨ls ++ ls', ?_, ?_, ?_, ?_⟩
    · rw [List.foldl_cons, ht, e1, f1, unlines_append, List.append_assoc]
    · have : 1 ≤ ls.length := by cases ls with
        | nil => exact absurd rfl e2
        | cons => simp
      simp; omega
    · intro l hl
      rcases List.mem_append.1 hl with hl | hl
      · exact e3 l hl
      · exact f3 l hl
    · rw [List.flatMap_append, e4, f4]
      simp [List.flatMap_cons, List.filter_append, wordsOf, pieces]

/-- A description is written as a blank line and lines that begin with `#`, do not end in a space, are at most
    80 characters long (or hold a single word) and hold the words of the description in order. -/
theorem C28_comment (d : Str) : ∃ ls : List Str, writeComment d = c!"\n" ++ (ls.map (· ++ c!"\n")).flatten ∧
    (∀ l ∈ ls, l.head? = some '#' ∧ '\n' ∉ l ∧ l.getLast? ≠ some ' ' ∧ (l.length ≤ 80 ∨ ∃ w, l = c!"# " ++ w ∧ ' ' ∉ w)) ∧
    ls.flatMap (fun l => wordsOf (l.drop 1)) = wordsOf d := by
  obtain ⟨ls, e1, _, e3, e4⟩ := comment_blocks (pieces (c!"\n") d) (c!"\n") (by
    intro p hp h
    exact (pieces_interleave (c!"\n") d).2.2 p hp _ h (by simp))
  refine ⟨ls, ?_, fun l hl => ⟨(e3 l hl).1, (e3 l hl).2, (e3 l hl).3, (e3 l hl).4⟩, ?_⟩
  · unfold writeComment
    rw [show tokenize d [] (c!"\n") false = pieces (c!"\n") d by rw [tokenize_eq]; simp [keep]]
    exact e1
  · rw [e4, wordsOf, pieces_two]

example : writeComment (c!"one  two\n\nthree ") = c!"\n# one  two\n#\n# three\n" := by decide +kernel

theorem wordLoop_short : ∀ (ws : List Str) (buf : Str) (sp : Nat) (out : Str), ws ≠ [] → buf ≠ [] →
    buf.length + sp + (List.intercalate [' '] ws).length ≤ 80 → (∀ w ∈ ws, ' ' ∉ w) →
    ∃ t k, wordLoop ws buf sp out = out ++ buf ++ t ++ c!"\n" ∧ List.replicate sp ' ' ++ List.intercalate [' '] ws = t ++ List.replicate k ' ' ∧
      t.getLast? ≠ some ' ' := by
  intro ws
  induction ws with
  | nil => intro buf sp out h; exact absurd rfl h
  | cons w ws ih =>
    intro buf sp out _ hb hlen hw
    have hw1 := hw w (by simp)
    have hbl : 0 < buf.length := by cases buf with
      | nil => exact absurd rfl hb
      | cons => simp
    unfold wordLoop
    by_cases h0 : w.length = 0
    · rw [if_pos h0]
      have : w = [] := List.length_eq_zero_iff.1 h0
      subst this
      cases ws with
      | nil =>
        refine ⟨[], sp, by simp [wordLoop, hbl], by simp [List.intercalate], by simp⟩
      | cons w2 ws =>
        rw [List.intercalate_cons_cons] at hlen ⊢
        obtain ⟨t, k, e1, e2, e3⟩ := ih buf (sp + 1) out (by simp) hb (by simp at hlen ⊢; omega) (fun x hx => hw x (by simp [hx]))
        refine ⟨t, k, e1, ?_, e3⟩
        rw [← e2, List.replicate_succ']; simp
    · rw [if_neg h0]
      have hne : w ≠ [] := fun h => h0 (by simp [h])
      have hlast : w.getLast? ≠ some ' ' := fun h => hw1 (List.mem_of_getLast? h)
      cases ws with
      | nil =>
        have : ¬ 80 < buf.length + sp + w.length := by simp [List.intercalate] at hlen; omega
        rw [if_neg this]
        refine ⟨List.replicate sp ' ' ++ w, 0, by simp [wordLoop, hb], by simp [List.intercalate], ?_⟩
        rw [last_append_ne hne]; exact hlast
      | cons w2 ws =>
        rw [List.intercalate_cons_cons] at hlen ⊢
        have : ¬ 80 < buf.length + sp + w.length := by simp at hlen; omega
        rw [if_neg this]
        obtain ⟨t, k, e1, e2, e3⟩ := ih (buf ++ (List.replicate sp ' ' ++ w)) 1 out (by simp) (by simp [hb]) (by simp at hlen ⊢; omega)
          (fun x hx => hw x (by simp [hx]))
        refine ⟨List.replicate sp ' ' ++ w ++ t, k, by rw [e1]; simp, ?_, ?_⟩
        · have : [' '] ++ List.intercalate [' '] (w2 :: ws) = t ++ List.replicate k ' ' := by simpa using e2
          simp only [List.append_assoc] at this ⊢
          rw [this]
        · by_cases ht : t = []
          · subst ht; rw [List.append_nil, last_append_ne hne]; exact hlast
          · rw [last_append_ne ht]; exact e3

/-- A short description of one line is written verbatim, without trailing spaces. -/
theorem C28_short_verbatim (d : Str) (h1 : '\n' ∉ d) (h2 : d.length ≤ 78) :
    ∃ t k, writeComment d = c!"\n#" ++ t ++ c!"\n" ∧ c!" " ++ d = t ++ List.replicate k ' ' ∧ t.getLast? ≠ some ' ' := by
  have hp : pieces (c!"\n") d = [d] := pieces_none _ _ (by
    intro c hc hm; simp at hm; subst hm; exact h1 hc)
  have hj : List.intercalate [' '] (pieces (c!" ") d) = d := by
    have := C32_tokenize_join d ' '
    rwa [tokenize_eq, show keep false (pieces [' '] d) = pieces (c!" ") d by simp [keep]] at this
  obtain ⟨t, k, e1, e2, e3⟩ := wordLoop_short (pieces (c!" ") d) (c!"#") 1 (c!"\n") (pieces_ne_nil _ _) (by simp) (by rw [hj]; simp; omega)
    (fun w hw h => (pieces_interleave (c!" ") d).2.2 w hw _ h (by simp))
  refine ⟨t, k, ?_, by rw [hj] at e2; simpa using e2, e3⟩
  unfold writeComment
  rw [show tokenize d [] (c!"\n") false = pieces (c!"\n") d by rw [tokenize_eq]; simp [keep], hp]
  simp only [List.foldl_cons, List.foldl_nil]
  rw [show tokenize d [] (c!" ") false = pieces (c!" ") d by rw [tokenize_eq]; simp [keep], e1]
  simp

/-! ### C27: entries -/

/-- Text that is only blank lines and comment lines. -/
def CommentText (t : Str) : Prop :=
  ∃ ls : List Str, t = unlines ls ∧ ∀ l ∈ ls, '\n' ∉ l ∧ (l = [] ∨ l.head? = some '#')

/-- The text of one entry: comments, `key = value`, and where it was defined. -/
def EntryText (h : Heap) (b : Nat) (k t : Str) : Prop :=
  ∃ com v loc, getValue h b k = .ok v ∧ getLocation h b k = .ok loc ∧ CommentText com ∧
    t = com ++ k ++ c!" = " ++ v ++ c!"\n" ++ locationComment loc

theorem commentText_write (d : Str) : CommentText (writeComment d) := by
  obtain ⟨ls, e1, e2, _⟩ := C28_comment d
  refine ⟨[] :: ls, by rw [e1]; simp [unlines], ?_⟩
  intro l hl
  rcases List.mem_cons.1 hl with rfl | hl
  · simp
  · exact ⟨(e2 l hl).2.1, .inr (e2 l hl).1⟩

theorem writeLoop_entries {h : Heap} {b : Nat} : ∀ (ks : List Str) (prev : Bool) (t : Str), writeLoop h b ks prev = (t, .ok ()) →
    ∃ ts : List Str, t = ts.flatten ∧ ts.length = ks.length ∧ ∀ p ∈ ks.zip ts, EntryText h b p.1 p.2 := by
  intro ks
  induction ks with
  | nil => intro prev t ht; simp only [writeLoop, Prod.mk.injEq] at ht; exact ⟨[], by simp [← ht.1], rfl, by simp⟩
  | cons k ks ih =>
    intro prev t ht
    unfold writeLoop at ht
    cases hd : getDescription h b k with
    | error e => simp [hd] at ht
    | ok d =>
      simp only [hd] at ht
      cases hv : getValue h b k with
      | error e => simp [hv] at ht
      | ok v =>
        simp only [hv] at ht
        cases hl : getLocation h b k with
        | error e => simp [hl] at ht
        | ok loc =>
          simp only [hl] at ht
          cases hr : writeLoop h b ks (decide (d ≠ [])) with
          | mk t' r =>
            rw [hr] at ht
            simp only [Prod.mk.injEq] at ht
            obtain ⟨rfl, rfl⟩ := ht
            obtain ⟨ts, h1, h2, h3⟩ := ih _ t' hr
            refine ⟨((if d ≠ [] then writeComment d else if prev = true then c!"\n" else []) ++ k ++ c!" = " ++ v ++ c!"\n" ++ locationComment loc) :: ts,
              by simp [h1], by simp [h2], ?_⟩
            intro p hp
            rw [List.zip_cons_cons, List.mem_cons] at hp
            rcases hp with rfl | hp
            · refine ⟨_, v, loc, hv, hl, ?_, rfl⟩
              split
              · exact commentText_write d
              · split
                · exact ⟨[[]], rfl, by simp⟩
                · exact ⟨[], rfl, by simp⟩
            · exact h3 p hp

theorem mem_insertKey (k a : Str) (l : List Str) : a ∈ insertKey k l ↔ a = k ∨ a ∈ l := by
  induction l with
  | nil => simp [insertKey]
  | cons x l ih =>
    unfold insertKey
    split
    · simp only [List.mem_cons, ih]
      constructor
      · rintro (h | h | h) <;> simp [h]
      · rintro (h | h | h) <;> simp [h]
    · simp [List.mem_cons]

theorem mem_sortKeys (a : Str) (l : List Str) : a ∈ sortKeys l ↔ a ∈ l := by
  induction l with
  | nil => simp [sortKeys]
  | cons x l ih =>
    unfold sortKeys at ih ⊢
    rw [List.foldr_cons, mem_insertKey, ih, List.mem_cons]

theorem length_sortKeys (l : List Str) : (sortKeys l).length = l.length := by
  have hi : ∀ (k : Str) (l : List Str), (insertKey k l).length = l.length + 1 := by
    intro k l
    induction l with
    | nil => rfl
    | cons x l ih => unfold insertKey; split <;> simp [ih]
  induction l with
  | nil => rfl
  | cons x l ih => unfold sortKeys at ih ⊢; rw [List.foldr_cons, hi, ih]; rfl

theorem sortKeys_sorted {l : List Str} (h : l.Nodup) : (sortKeys l).Pairwise (fun a b => strLt a b = true) := by
  have hi : ∀ (k : Str) (l : List Str), k ∉ l → l.Pairwise (fun a b => strLt a b = true) → (insertKey k l).Pairwise (fun a b => strLt a b = true) := by
    intro k l
    induction l with
    | nil => intro _ _; simp [insertKey]
    | cons x l ih =>
      intro hk hp
      rw [List.pairwise_cons] at hp
      unfold insertKey
      split
      · rename_i hx
        rw [List.pairwise_cons]
        refine ⟨?_, ih (fun h => hk (by simp [h])) hp.2⟩
        intro a ha
        rcases (mem_insertKey k a l).1 ha with rfl | ha
        · exact hx
        · exact hp.1 a ha
      · rename_i hx
        have hkx : strLt k x = true := by
          cases hc : strLt k x with
          | true => rfl
          | false => exact absurd (strLt_tri k x hc (by simpa using hx)) (fun h => hk (by simp [h]))
        rw [List.pairwise_cons]
        refine ⟨?_, List.pairwise_cons.2 hp⟩
        intro a ha
        rcases List.mem_cons.1 ha with rfl | ha
        · exact hkx
        · exact strLt_trans _ _ _ hkx (hp.1 a ha)
  induction l with
  | nil => simp [sortKeys]
  | cons x l ih =>
    rw [List.nodup_cons] at h
    unfold sortKeys at ih ⊢
    rw [List.foldr_cons]
    exact hi x _ (fun hm => h.1 ((mem_sortKeys x l).1 hm)) (ih h.2)

theorem writeLoop_ok {h : Heap} {b : Nat} : ∀ (ks : List Str) (prev : Bool), (∀ k ∈ ks, (∃ d, getDescription h b k = .ok d) ∧ (∃ v, getValue h b k = .ok v) ∧
    ∃ l, getLocation h b k = .ok l) → (writeLoop h b ks prev).2 = .ok () := by
  intro ks
  induction ks with
  | nil => intro prev _; rfl
  | cons k ks ih =>
    intro prev hk
    obtain ⟨⟨d, hd⟩, ⟨v, hv⟩, l, hl⟩ := hk k (by simp)
    unfold writeLoop
    simp only [hd, hv, hl]
    exact ih _ (fun x hx => hk x (by simp [hx]))

/-- A root block without values is refused. -/
theorem C27_empty_refused {h : Heap} (hr : Reachable h) {b : Nat} (hb : IsRoot h b) :
    (writeConfig h b).2 = .error .write ↔ ∀ k, hasValue h b k = .ok false := by
  obtain ⟨ks, e1, _, _, e2⟩ := C10_available_root hr hb
  have tot : ∀ k, hasValue h b k = .ok true ∨ hasValue h b k = .ok false := by
    intro k
    obtain ⟨blk, g1, g2⟩ := hb
    rw [has_view hr.wf (.root g1 g2) g1]
    cases blk.store.contains ([] ++ k) <;> simp
  unfold writeConfig
  rw [e1]
  simp only
  cases ks with
  | nil =>
    simp only [List.length_nil, if_true, true_iff]
    intro k
    rcases tot k with h | h
    · exact absurd ((e2 k).2 h) (by simp)
    · exact h
  | cons k ks =>
    rw [if_neg (by simp)]
    constructor
    · intro hw
      exfalso
      have : ∀ (ks : List Str) (prev : Bool), (writeLoop h b ks prev).2 ≠ .error .write := by
        intro ks
        induction ks with
        | nil => intro prev; simp [writeLoop]
        | cons k ks ih =>
          intro prev
          unfold writeLoop
          cases getDescription h b k with
          | error e => simp
          | ok d =>
            cases getValue h b k with
            | error e => simp
            | ok v =>
              cases getLocation h b k with
              | error e => simp
              | ok l => exact ih _
      exact this _ _ hw
    · intro hall
      have := (e2 k).1 (by simp)
      rw [hall k] at this; cases this

/-- Any other root block is written: one text per key that has a value, in strictly increasing key order. -/
theorem C27_sorted_entries {h : Heap} (hr : Reachable h) {b : Nat} (hb : IsRoot h b) {k0 : Str} (hk : hasValue h b k0 = .ok true) :
    (writeConfig h b).2 = .ok () ∧ ∃ (ks ts : List Str), (writeConfig h b).1 = ts.flatten ∧ ks.Pairwise (fun a c => strLt a c = true) ∧
      (∀ k, k ∈ ks ↔ hasValue h b k = .ok true) ∧ ts.length = ks.length ∧ ∀ p ∈ ks.zip ts, EntryText h b p.1 p.2 := by
  obtain ⟨ks, e1, e2, e3, e4⟩ := C10_available_root hr hb
  obtain ⟨blk, g1, g2⟩ := hb
  have hne : ks.length ≠ 0 := by
    intro h0
    rw [List.length_eq_zero_iff] at h0
    have := (e4 k0).2 hk
    simp [h0] at this
  have hw : writeConfig h b = writeLoop h b (sortKeys ks) false := by
    unfold writeConfig; rw [e1]; simp only; rw [if_neg hne]
  have hok : (writeLoop h b (sortKeys ks) false).2 = .ok () := by
    refine writeLoop_ok _ _ ?_
    intro k hk
    rw [mem_sortKeys, e4] at hk
    have v := ViewOf.root g1 g2
    have hs : blk.store.contains k = true := by
      rw [has_view hr.wf v g1] at hk; simpa using hk
    refine ⟨?_, ?_, ⟨blk.defs.find? k, by simp [getLocation, g1]⟩⟩
    · have : blk.descr.contains k = true := by rw [← (hr.wf _ _ g1).same]; exact hs
      rw [desc_view hr.wf v g1]
      unfold OMap.contains at this
      simp only [List.nil_append]
      cases hf : blk.descr.find? k with
      | none => simp [hf] at this
      | some d => exact ⟨d, rfl⟩
    · rw [get_view hr.wf v g1]
      unfold OMap.contains at hs
      simp only [List.nil_append]
      cases hf : blk.store.find? k with
      | none => simp [hf] at hs
      | some d => exact ⟨d, rfl⟩
  rw [hw]
  refine ⟨hok, sortKeys ks, ?_⟩
  obtain ⟨ts, h1, h2, h3⟩ := writeLoop_entries (h := h) (b := b) (sortKeys ks) false (writeLoop h b (sortKeys ks) false).1 (by rw [← hok])
  exact ⟨ts, h1, sortKeys_sorted e3, fun k => by rw [mem_sortKeys, e4], h2, h3⟩

/-- Blocks that answer all queries alike are written alike. -/
theorem C27_deterministic {h h' : Heap} (hr : Reachable h) (hr' : Reachable h') {b b' : Nat} (hb : IsRoot h b) (hb' : IsRoot h' b')
    (hall : ∀ k, hasValue h b k = hasValue h' b' k ∧ getValue h b k = getValue h' b' k ∧ getDescription h b k = getDescription h' b' k ∧
      getLocation h b k = getLocation h' b' k) : writeConfig h b = writeConfig h' b' := by
  obtain ⟨ks, e1, e2, e3, e4⟩ := C10_available_root hr hb
  obtain ⟨ks', f1, f2, f3, f4⟩ := C10_available_root hr' hb'
  have hk : ks = ks' := by
    have uniq : ∀ (a b : List Str), a.Pairwise (fun x y => strLt x y = true) → b.Pairwise (fun x y => strLt x y = true) →
        (∀ k, k ∈ a ↔ k ∈ b) → a = b := by
      intro a
      induction a with
      | nil => intro b _ _ h; cases b with
        | nil => rfl
        | cons x b => have := (h x).2 (by simp); simp at this
      | cons x a ih =>
        intro b ha hb h
        cases b with
        | nil => have := (h x).1 (by simp); simp at this
        | cons y b =>
          rw [List.pairwise_cons] at ha hb
          have hxy : x = y := by
            rcases List.mem_cons.1 ((h x).1 (by simp)) with e | hx
            · exact e
            · rcases List.mem_cons.1 ((h y).2 (by simp)) with e | hy
              · exact e.symm
              · have h1 := hb.1 x hx
                have h2 := ha.1 y hy
                have := strLt_trans _ _ _ h1 h2
                rw [strLt_irrefl] at this; cases this
          subst hxy
          rw [ih b ha.2 hb.2 ?_]
          intro k
          constructor
          · intro hk
            rcases List.mem_cons.1 ((h k).1 (by simp [hk])) with rfl | hk'
            · have := ha.1 k hk; rw [strLt_irrefl] at this; cases this
            · exact hk'
          · intro hk
            rcases List.mem_cons.1 ((h k).2 (by simp [hk])) with rfl | hk'
            · have := hb.1 k hk; rw [strLt_irrefl] at this; cases this
            · exact hk'
    refine uniq ks ks' e2 f2 (fun k => ?_)
    rw [e4, f4, (hall k).1]
  subst hk
  have loop : ∀ (l : List Str) (prev : Bool), writeLoop h b l prev = writeLoop h' b' l prev := by
    intro l
    induction l with
    | nil => intro prev; rfl
    | cons k l ih =>
      intro prev
      unfold writeLoop
      obtain ⟨_, a2, a3, a4⟩ := hall k
      simp only [a2, a3, a4, ih]
  unfold writeConfig
  rw [e1, f1]
  simp only [loop]

/-- The demo block: a described entry with a location and two without. -/
def writeDemo : Heap := run [.emptyConfig (c!"w"), .setValue 0 (c!"beta:x") (c!" 7 up ") (c!"the number\nof things"), .setValue 0 (c!"beta:y") [] [],
  .setValue 0 (c!"alpha") (c!"a=b") [], .setLocation 0 (c!"beta:x") (c!"/m.cfg", 4), .markReadOnly 0 (c!"alpha")]

theorem writeDemo_root : IsRoot writeDemo 0 := by
  refine ⟨(writeDemo[0]?).get (by decide +kernel), (Option.some_get _).symm, by decide +kernel⟩

theorem writeDemo_text : writeConfig writeDemo 0 =
    (c!"alpha = a=b\n\n# the number\n# of things\nbeta:x = 7 up\n# defined - /m.cfg:4\n\nbeta:y = \n", .ok ()) := by decide +kernel

example : hasValue writeDemo 0 (c!"alpha") = .ok true := by decide +kernel

end Vital.Config

namespace Vital.Parser
open Vital Vital.Config Vital.Expand Vital.Sys

/-! ### C26: reading back -/

theorem cleans_hash {l : Str} (h : l = [] ∨ l.head? = some '#') : CleansTo l [] := by
  refine ⟨[], [], l, by simp, by simp [Blank], by simp [Blank], ⟨by simp, by simp⟩, by simp, ?_⟩
  exact h

/-- A key that the parser reads and that is no directive. -/
def PlainKey (k : Str) : Prop := Key k ∧ k ∉ keywords

/-- A value that stands for itself. -/
def PlainValue (v : Str) : Prop := '\n' ∉ v ∧ '#' ∉ v ∧ '$' ∉ v

theorem key_no {k : Str} (hk : Key k) : '\n' ∉ k ∧ '#' ∉ k := by
  constructor
  · intro h
    have h1 := hk.2.2.1 _ h
    have h2 : ¬ '\n' ∈ wordChars := by decide +kernel
    exact h2 h1
  · intro h
    have h1 := hk.2.2.1 _ h
    have h2 : ¬ '#' ∈ wordChars := by decide +kernel
    exact h2 h1

theorem entry_line {k v : Str} (hk : PlainKey k) (hv : PlainValue v) (ht : trim v = v) (n : Nat) (ls : List Str) (ds : List (Nat × Directive))
    (h : Lines (n + 1) ls ds) : Lines n ((k ++ c!" = " ++ v) :: ls) ((n + 1, .entry false k [] v) :: ds) := by
  obtain ⟨a, ka, hka⟩ := hk.1.2.1
  have hspa : isSpace a = false := key_head_nonspace hk.1 [] a (by simpa using ka)
  have hkn := key_ne_nil hk.1
  have hsp : Blank (c!" ") := by intro c hc; simp at hc; subst hc; rfl
  by_cases hvn : v = []
  · subst hvn
    refine .line (c := k ++ c!" =") (c' := k ++ c!" =") ⟨[], c!" ", [], by simp, by simp [Blank], hsp, ⟨?_, ?_⟩, ?_, .inl rfl⟩
      (by simp) .same (.whole ?_) h
    · intro c hc; rw [List.head?_append, ka] at hc; simp at hc; subst hc; exact hspa
    · intro c hc
      rw [last_append_ne (by simp)] at hc
      have : c = '=' := by simpa using hc.symm
      subst this; rfl
    · simp [(key_no hk.1).2]
    · have := LineIs.entry (rel := false) (p := []) (key := k) (fl := c!" ") (flags := []) (v := []) (rhs := []) rfl hk.1 (fun _ => hk.2) (.nil hsp)
        ((stripsTo_iff _ _).2 rfl)
      simpa using this
  · have htr : Trimmed v := (trimmed_iff_trim v).2 ht
    refine .line (c := k ++ c!" = " ++ v) (c' := k ++ c!" = " ++ v) ⟨[], [], [], by simp, by simp [Blank], by simp [Blank], ⟨?_, ?_⟩, ?_, .inl rfl⟩
      (by simp) .same (.whole ?_) h
    · intro c hc; rw [List.append_assoc, List.head?_append, ka] at hc; simp at hc; subst hc; exact hspa
    · intro c hc
      rw [last_append_ne hvn] at hc
      exact htr.2 c hc
    · simp [(key_no hk.1).2, hv.2.1]
    · have := LineIs.entry (rel := false) (p := []) (key := k) (fl := c!" ") (flags := []) (v := ' ' :: v) (rhs := v) rfl hk.1 (fun _ => hk.2) (.nil hsp)
        ((stripsTo_iff _ _).2 (by
          have := trim_lead hsp (x := v) (fun c hc => htr.1 c hc) (fun c hc => htr.2 c hc)
          simpa using this))
      simpa using this

/-- The lines of the written entries. -/
theorem entries_lines {h : Heap} {b : Nat} : ∀ (ks ts : List Str), ts.length = ks.length → (∀ p ∈ ks.zip ts, EntryText h b p.1 p.2) →
    (∀ k ∈ ks, PlainKey k) → (∀ k ∈ ks, ∀ v, getValue h b k = .ok v → PlainValue v ∧ trim v = v) →
    (∀ k ∈ ks, ∀ f n, getLocation h b k = .ok (some (f, n)) → '\n' ∉ f) →
    ∃ ls, ts.flatten = unlines ls ∧ (∀ l ∈ ls, '\n' ∉ l) ∧ ∀ n, ∃ ds, Lines n ls ds ∧ ds.length = ks.length ∧
      ∀ p ∈ ks.zip ds, ∃ m v, p.2 = (m, .entry false p.1 [] v) ∧ getValue h b p.1 = .ok v := by
  intro ks
  induction ks with
  | nil =>
    intro ts hlen _ _ _ _
    have : ts = [] := List.length_eq_zero_iff.1 hlen
    subst this
    exact ⟨[], rfl, by simp, fun n => ⟨[], .nil, rfl, by simp⟩⟩
  | cons k ks ih =>
    intro ts hlen ht hk hv hloc
    cases ts with
    | nil => simp at hlen
    | cons t ts =>
      obtain ⟨ls, e1, e2, e3⟩ := ih ts (by simpa using hlen) (fun p hp => ht p (by simp [hp])) (fun x hx => hk x (by simp [hx]))
        (fun x hx => hv x (by simp [hx])) (fun x hx => hloc x (by simp [hx]))
      have ht' : EntryText h b k t := ht (k, t) (by simp)
      obtain ⟨com, v, loc, g1, g2, ⟨cl, rfl, g4⟩, rfl⟩ := ht'
      obtain ⟨pv, tv⟩ := hv k (by simp) v g1
      have pk := hk k (by simp)
      have skip : ∀ (bl : List Str), (∀ l ∈ bl, l = [] ∨ l.head? = some '#') → ∀ n ls ds, Lines (n + bl.length) ls ds → Lines n (bl ++ ls) ds := by
        intro bl
        induction bl with
        | nil => intro _ n ls ds h; exact h
        | cons l bl ih2 =>
          intro hb n ls ds h
          refine .skip (cleans_hash (hb l (by simp))) (ih2 (fun x hx => hb x (by simp [hx])) (n + 1) ls ds ?_)
          rw [List.length_cons] at h
          rw [show n + 1 + bl.length = n + (bl.length + 1) by omega]; exact h
      -- the line for the location
      have hll : ∃ ll : List Str, locationComment loc = unlines ll ∧ ∀ l ∈ ll, '\n' ∉ l ∧ (l = [] ∨ l.head? = some '#') := by
        cases loc with
        | none => exact ⟨[], rfl, by simp⟩
        | some l =>
          obtain ⟨f, m⟩ := l
          refine ⟨[c!"# defined - " ++ f ++ c!":" ++ intStr m], by simp [locationComment, unlines], ?_⟩
          intro l hl
          rw [List.mem_singleton] at hl
          subst hl
          refine ⟨?_, .inr rfl⟩
          have h1 := hloc k (by simp) f m g2
          have h2 : '\n' ∉ intStr m := by
            intro hm
            have := intStr_no_space m _ hm
            revert this; decide
          simp only [List.mem_append, not_or]
          exact ⟨⟨⟨by decide, h1⟩, by decide⟩, h2⟩
      obtain ⟨ll, k1, k2⟩ := hll
      refine ⟨cl ++ (k ++ c!" = " ++ v) :: (ll ++ ls), ?_, ?_, ?_⟩
      · rw [List.flatten_cons, e1, unlines_append, unlines_cons, unlines_append, k1]; simp
      · intro l hl
        simp only [List.mem_append, List.mem_cons] at hl
        rcases hl with hl | rfl | hl | hl
        · exact (g4 l hl).1
        · simp [(key_no pk.1).1, pv.1]
        · exact (k2 l hl).1
        · exact e2 l hl
      · intro n
        obtain ⟨ds, d1, d2, d3⟩ := e3 (n + cl.length + 1 + ll.length)
        refine ⟨(n + cl.length + 1, .entry false k [] v) :: ds, ?_, by simp [d2], ?_⟩
        · exact skip cl (fun l hl => (g4 l hl).2) n _ _ (entry_line pk pv tv _ _ _ (skip ll (fun l hl => (k2 l hl).2) _ _ _ d1))
        · intro p hp
          rw [List.zip_cons_cons, List.mem_cons] at hp
          rcases hp with rfl | hp
          · exact ⟨_, v, rfl, g1⟩
          · exact d3 p hp

theorem exec_entries {w : World} {search : List Str} {file : Str} {h : Heap} {b : Nat} : ∀ (ks : List Str) (ds : List (Nat × Directive)) (e : Env),
    ds.length = ks.length → (∀ p ∈ ks.zip ds, ∃ m v, p.2 = (m, .entry false p.1 [] v) ∧ getValue h b p.1 = .ok v) →
    (∀ k ∈ ks, ∀ v, getValue h b k = .ok v → PlainValue v ∧ trim v = v) → (∀ k, e.ro k = false) →
    ∃ tr e', Exec w search [file] [] ds e tr (.done []) e' ∧ tr.any Stmt.isError = false ∧ (∀ k, e'.ro k = false) ∧
      (∀ k, k ∈ ks → ∃ v, getValue h b k = .ok v ∧ e'.val k = some v) ∧ (∀ k, k ∉ ks → e'.val k = e.val k) := by
  intro ks
  induction ks with
  | nil =>
    intro ds e hlen _ _ hro
    have : ds = [] := List.length_eq_zero_iff.1 hlen
    subst this
    exact ⟨[], e, .nil, rfl, hro, by simp, by simp⟩
  | cons k ks ih =>
    intro ds e hlen hd hv hro
    cases ds with
    | nil => simp at hlen
    | cons d ds =>
      have hd' : ∃ m v, d = (m, .entry false k [] v) ∧ getValue h b k = .ok v := hd (k, d) (by simp)
      obtain ⟨m, v, rfl, gv⟩ := hd'
      obtain ⟨pv, tv⟩ := hv k (by simp) v gv
      obtain ⟨tr, e', h1, h2, h3, h4, h5⟩ := ih ds (e.apply (.set file m k v false)) (by simpa using hlen) (fun p hp => hd p (by simp [hp]))
        (fun x hx => hv x (by simp [hx])) (by intro k'; simp [Env.apply, hro])
      obtain ⟨y, hy⟩ := expands_total (symbols w e) v
      have hyv := expands_plain pv.2.2 hy
      subst hyv
      have hx := Exec.entry (w := w) (search := search) (file := file) (inc := []) (st := []) (n := m) (rel := false) (key := k) (flags := []) (rhs := y)
        (ds := ds) (e := e) (x := y) (v := y) (tr := tr) (r := .done []) (e' := e') ⟨y, hy, rfl⟩ ((stripsTo_iff _ _).2 tv) (hro _) h1
      refine ⟨_, e', hx, ?_, h3, ?_, ?_⟩
      · simp [flagErrors, Stmt.isError, h2]
      · intro k' hk'
        by_cases hm : k' ∈ ks
        · exact h4 k' hm
        · rcases List.mem_cons.1 hk' with rfl | hk'
          · refine ⟨y, gv, ?_⟩
            rw [h5 k' hm]
            simp [Env.apply]
          · exact absurd hk' hm
      · intro k' hk'
        simp only [List.mem_cons, not_or] at hk'
        rw [h5 k' hk'.2]
        simp [Env.apply, hk'.1]

/-- A written config reads back with the same keys and values, nothing read-only. -/
theorem C26_write_read {h : Heap} (hr : Reachable h) {b : Nat} (hb : IsRoot h b)
    (hkeys : ∀ k, hasValue h b k = .ok true → PlainKey k) (hvals : ∀ k v, getValue h b k = .ok v → PlainValue v)
    (hlocs : ∀ k f n, getLocation h b k = .ok (some (f, n)) → '\n' ∉ f) {k0 : Str} (hne : hasValue h b k0 = .ok true)
    {w : World} {file : Str} (hc : w.content file = some (writeConfig h b).1) (search : List Str) {h0 : Heap} (hr0 : Reachable h0) :
    (writeConfig h b).2 = .ok () ∧ ∃ s', Parses w (fresh h0 search) file s' (.ok ()) ∧
      ∀ k, getValue s'.heap s'.cfg k = getValue h b k ∧ hasValue s'.heap s'.cfg k = hasValue h b k ∧ isReadOnly s'.heap s'.cfg k = .ok false := by
  obtain ⟨hok, ks, ts, g1, g2, g3, g4, g5⟩ := C27_sorted_entries hr hb hne
  refine ⟨hok, ?_⟩
  obtain ⟨blk, b1, b2⟩ := hb
  have vw := ViewOf.root b1 b2
  have htrim : ∀ k v, getValue h b k = .ok v → trim v = v := by
    intro k v hv
    rw [get_view hr.wf vw b1] at hv
    simp only [List.nil_append] at hv
    cases hf : blk.store.find? k with
    | none => rw [hf] at hv; cases hv
    | some x =>
      rw [hf] at hv
      cases hv
      exact (hr.wf _ _ b1).trimmed k v hf
  obtain ⟨ls, e1, e2, e3⟩ := entries_lines ks ts g4 g5 (fun k hk => hkeys k ((g3 k).1 hk)) (fun k _ v hv => ⟨hvals k v hv, htrim k v hv⟩)
    (fun k _ f n hl => hlocs k f n hl)
  obtain ⟨ds, d1, d2, d3⟩ := e3 0
  obtain ⟨tr, e', x1, x2, x3, x4, x5⟩ := exec_entries (w := w) (search := search) (file := file) ks ds Env.empty d2 d3
    (fun k _ v hv => ⟨hvals k v hv, htrim k v hv⟩) (fun _ => rfl)
  have ht : TextIs (writeConfig h b).1 ls := ⟨e2, .inl (by rw [g1, e1]; rfl)⟩
  obtain ⟨s', p1, p2⟩ := C20_document hc ht d1 x1 hr0
  refine ⟨s', ?_, ?_⟩
  · have : (Res.done []).outcome file tr = .ok () := by simp [Res.outcome, x2]
    rw [this] at p1; exact p1
  · intro k
    obtain ⟨q1, q2, q3, _⟩ := p2 k
    rw [x3] at q3
    by_cases hk : k ∈ ks
    · obtain ⟨v, v1, v2⟩ := x4 k hk
      rw [v2] at q1 q2
      exact ⟨q1.trans v1.symm, q2.trans ((g3 k).1 hk).symm, q3⟩
    · rw [x5 k hk] at q1 q2
      have hs : blk.store.find? k = none := by
        have := fun hh => hk ((g3 k).2 hh)
        rw [has_view hr.wf vw b1] at this
        simp only [List.nil_append, OMap.contains] at this
        cases hf : blk.store.find? k with
        | none => rfl
        | some x => exact absurd (by rw [hf]; rfl) this
      refine ⟨q1.trans ?_, q2.trans ?_, q3⟩
      · rw [get_view hr.wf vw b1]; simp [hs, Env.empty]
      · rw [has_view hr.wf vw b1]; simp [OMap.contains, hs, Env.empty]

/-! The hypotheses hold of the demo block: it writes and reads back. -/

theorem writeDemo_keys (k : Str) : hasValue writeDemo 0 k = .ok true → k = c!"alpha" ∨ k = c!"beta:x" ∨ k = c!"beta:y" := by
  intro h
  obtain ⟨ks, e1, _, _, e4⟩ := C10_available_root (h := writeDemo) ⟨_, rfl⟩ writeDemo_root
  have e : availableValues writeDemo 0 = .ok [c!"alpha", c!"beta:x", c!"beta:y"] := by decide +kernel
  rw [e] at e1
  cases e1
  have := (e4 k).2 h
  simpa using this

theorem plainKey_of {k : Str} (h : 3 ≤ k.length ∧ (k.head?.all (letters.contains ·)) = true ∧ (k.all (wordChars.contains ·)) = true ∧
    k.getLast? ≠ some ':' ∧ k ∉ keywords) : PlainKey k := by
  obtain ⟨h1, h2, h3, h4, h5⟩ := h
  refine ⟨⟨h1, ?_, ?_, h4⟩, h5⟩
  · cases k with
    | nil => simp at h1
    | cons a k => exact ⟨a, rfl, by simpa using h2⟩
  · simpa using h3

def writeWorld : World := { content := fun f => if f = c!"/w.cfg" then some (writeConfig writeDemo 0).1 else none }

example : ∃ s', Parses writeWorld (fresh [] []) (c!"/w.cfg") s' (.ok ()) ∧
    ∀ k, getValue s'.heap s'.cfg k = getValue writeDemo 0 k ∧ hasValue s'.heap s'.cfg k = hasValue writeDemo 0 k ∧
      isReadOnly s'.heap s'.cfg k = .ok false := by
  refine (C26_write_read (h := writeDemo) ⟨_, rfl⟩ writeDemo_root ?_ ?_ ?_ (k0 := c!"alpha") (by decide +kernel)
    (w := writeWorld) (file := c!"/w.cfg") (by simp [writeWorld]) [] nil_reachable).2
  · intro k hk
    rcases writeDemo_keys k hk with rfl | rfl | rfl <;> exact plainKey_of (by decide +kernel)
  · intro k v hv
    have hk : hasValue writeDemo 0 k = .ok true := by
      obtain ⟨blk, b1, b2⟩ := writeDemo_root
      have hr : Reachable writeDemo := ⟨_, rfl⟩
      rw [get_view hr.wf (.root b1 b2) b1] at hv
      rw [has_view hr.wf (.root b1 b2) b1]
      simp only [OMap.contains]
      cases hf : blk.store.find? ([] ++ k) with
      | none => rw [hf] at hv; cases hv
      | some x => rfl
    rcases writeDemo_keys k hk with rfl | rfl | rfl
    · have e : getValue writeDemo 0 (c!"alpha") = .ok (c!"a=b") := by decide +kernel
      rw [e] at hv; cases hv; unfold PlainValue; decide
    · have e : getValue writeDemo 0 (c!"beta:x") = .ok (c!"7 up") := by decide +kernel
      rw [e] at hv; cases hv; unfold PlainValue; decide
    · have e : getValue writeDemo 0 (c!"beta:y") = .ok [] := by decide +kernel
      rw [e] at hv; cases hv; unfold PlainValue; decide
  · intro k f n hl
    have e : (writeDemo[0]?).map (·.defs) = some [(c!"beta:x", (c!"/m.cfg", 4))] := by decide +kernel
    unfold getLocation at hl
    cases hb : writeDemo[0]? with
    | none => rw [hb] at hl; cases hl
    | some blk =>
      rw [hb] at hl e
      simp only [Option.map_some, Option.some.injEq] at e
      simp only [e] at hl
      unfold OMap.find? at hl
      split at hl
      · cases hl; decide
      · simp [OMap.find?] at hl

/-! Without the condition on keys the property fails: a key of two characters is written and cannot be read. -/

def shortDemo : Heap := run [.emptyConfig (c!"w"), .setValue 0 (c!"ab") (c!"1") []]
def shortWorld : World := { content := fun f => if f = c!"/w.cfg" then some (c!"ab = 1\n") else none }

theorem short_some : (parseF 20 shortWorld (fresh [] []) (c!"/w.cfg")).isSome = true := by decide +kernel

theorem C26_short_key_lost : writeConfig shortDemo 0 = (c!"ab = 1\n", .ok ()) ∧
    ∃ s', Parses shortWorld (fresh [] []) (c!"/w.cfg") s' (.error (.notParsed (c!"/w.cfg"))) ∧ hasValue s'.heap s'.cfg (c!"ab") = .ok false := by
  have h := parses_get short_some
  have e : ((parseF 20 shortWorld (fresh [] []) (c!"/w.cfg")).get short_some).2 = .error (.notParsed (c!"/w.cfg")) := by decide +kernel
  rw [e] at h
  exact ⟨by decide +kernel, _, h, by decide +kernel⟩

end Vital.Parser
