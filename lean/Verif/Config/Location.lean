import Verif.Config.Props
/-
  C73: source locations.  `set_location` / `get_location` work on the block they are called on (a view
  does not forward them); only `unset_value` on the owning root block removes a location.
-/
namespace Vital.Config
open Vital

/-- Every block that existed still exists and remembers the same locations. -/
def KeepsLocations (h h' : Heap) : Prop :=
  ∀ (i : Nat) (k : Str), i < h.length → getLocation h' i k = getLocation h i k

theorem KeepsLocations.refl (h : Heap) : KeepsLocations h h := fun _ _ _ => rfl

theorem keeps_set {h : Heap} {r : Nat} {blk x : Block} (hb : h[r]? = some blk) (hd : x.defs = blk.defs) :
    KeepsLocations h (h.set r x) := by
  intro i k _
  unfold getLocation
  by_cases e : i = r
  · subst e; rw [set_same hb, hb]; simp [hd]
  · rw [set_other e]

theorem keeps_append (h t : Heap) : KeepsLocations h (h ++ t) := by
  intro i k hi
  unfold getLocation
  rw [List.getElem?_append_left hi]

theorem keeps_trans {a b c : Heap} (hl : a.length ≤ b.length) (h1 : KeepsLocations a b)
    (h2 : KeepsLocations b c) : KeepsLocations a c :=
  fun i k hi => (h2 i k (Nat.lt_of_lt_of_le hi hl)).trans (h1 i k hi)

theorem iSet_keeps (n : Nat) (h : Heap) (b : Nat) (k v d : Str) :
    KeepsLocations h (iSetValueF n h b k v d).1 ∧ (iSetValueF n h b k v d).1.length = h.length := by
  induction n generalizing b k with
  | zero => exact ⟨.refl h, rfl⟩
  | succ n ih =>
    unfold iSetValueF
    split
    · exact ⟨.refl h, rfl⟩
    · rename_i blk hb
      split
      · exact ih _ _
      · split
        · exact ⟨.refl h, rfl⟩
        · exact ⟨keeps_set hb rfl, by simp⟩

theorem setValue_keeps (h : Heap) (b : Nat) (k v d : Str) :
    KeepsLocations h (setValue h b k v d).1 ∧ (setValue h b k v d).1.length = h.length :=
  iSet_keeps _ _ _ _ _ _

theorem mergeLoop_keeps (b c : Nat) (keys : List Str) (h : Heap) :
    KeepsLocations h (mergeLoop b c keys h).1 := by
  induction keys generalizing h with
  | nil => exact .refl h
  | cons k ks ih =>
    unfold mergeLoop
    split
    · exact .refl h
    · split
      · exact .refl h
      · rename_i v _ _ d _
        have := setValue_keeps h b k v d
        split <;> rename_i e <;> rw [e] at this
        · exact this.1
        · exact keeps_trans (Nat.le_of_eq this.2.symm) this.1 (ih _)

theorem subLoop_keeps (b c : Nat) (n : Str) (keys : List Str) (h : Heap) :
    KeepsLocations h (subblockLoop b c n keys h).1 := by
  induction keys generalizing h with
  | nil => exact .refl h
  | cons k ks ih =>
    unfold subblockLoop
    split
    · exact ih h
    · split
      · exact .refl h
      · split
        · exact .refl h
        · rename_i v _ _ d _
          have := setValue_keeps h c (stripBlockName n k) v d
          split <;> rename_i e <;> rw [e] at this
          · exact this.1
          · exact keeps_trans (Nat.le_of_eq this.2.symm) this.1 (ih _)

/-- The call records or removes a location itself. -/
def TouchesLocations : Op → Prop
  | .setLocation .. | .unsetValue .. => True
  | _ => False

/-- `set_location(k, l)` on a block makes exactly `get_location(k)` of exactly that block return `l`. -/
theorem C73_set_location {h : Heap} {b : Nat} (hb : b < h.length) (k : Str) (l : Loc) :
    (setLocation h b k l).2 = .ok () ∧
    getLocation (setLocation h b k l).1 b k = .ok (some l) ∧
    ∀ b' k', b' < h.length → (b', k') ≠ (b, k) →
      getLocation (setLocation h b k l).1 b' k' = getLocation h b' k' := by
  have hbe : h[b]? = some h[b] := List.getElem?_eq_getElem hb
  refine ⟨by simp [setLocation, hbe], by simp [setLocation, getLocation, hb, OMap.find?_insert], ?_⟩
  intro b' k' _ hne
  simp only [setLocation, hbe, getLocation]
  by_cases e : b' = b
  · subst e
    rw [set_same hbe, hbe]
    have : k' ≠ k := fun e => hne (by rw [e])
    simp [OMap.find?_insert, this]
  · rw [set_other e]

/-- A successful `unset_value` forgets the location which the owning root block has for the entry, and
    no other; a failing one forgets nothing. -/
theorem C73_unset_forgets {h : Heap} (hr : Reachable h) {b r : Nat} {k fk : Str} (hd : Denotes h b k r fk) :
    ((unsetValue h b k).2 = .ok () → getLocation (unsetValue h b k).1 r fk = .ok none) ∧
    ∀ b' k', b' < h.length → ((unsetValue h b k).2 ≠ .ok () ∨ (b', k') ≠ (r, fk)) →
      getLocation (unsetValue h b k).1 b' k' = getLocation h b' k' := by
  have w := hr.wf
  obtain ⟨pre, hv, rfl⟩ := hd
  have hb := hv.lt
  obtain ⟨rb, hrb, hp⟩ := hv.root_of
  constructor
  · intro hok
    obtain ⟨h', e⟩ : ∃ h', unsetValue h b k = (h', .ok ()) := ⟨_, Prod.ext rfl hok⟩
    rw [unset_view w hv hrb] at e
    rw [unset_view w hv hrb]
    split at e <;> try (cases e; done)
    split at e <;> try (cases e; done)
    rename_i h1 h2
    simp only [h1, h2, if_false, Bool.false_eq_true, getLocation]
    rw [set_same hrb]
    simp [Block.del, OMap.find?_erase]
  · intro b' k' _ hor
    rw [unset_view w hv hrb] at hor ⊢
    split
    · rfl
    · split
      · rfl
      · rename_i h1 h2
        simp only [h1, h2, if_false, Bool.false_eq_true, ne_eq, not_true_eq_false, false_or] at hor
        simp only [getLocation]
        by_cases e : b' = r
        · subst e
          rw [set_same hrb, hrb]
          have : k' ≠ pre ++ k := fun e => hor (by rw [e])
          simp [Block.del, OMap.find?_erase, this]
        · rw [set_other e]

/-- No other call changes the location of anything, and new blocks start without locations. -/
theorem C73_others_keep (h : Heap) (op : Op) (ht : ¬ TouchesLocations op) :
    ∀ (b : Nat) (k : Str), b < h.length → getLocation (step h op) b k = getLocation h b k := by
  change KeepsLocations h (step h op)
  cases op with
  | emptyConfig n => exact keeps_append _ _
  | subblockView b k =>
    simp only [step, subblockView]; split
    · exact .refl h
    · exact keeps_append _ _
  | setValue b k v d => exact (setValue_keeps h b k v d).1
  | unsetValue => exact absurd trivial ht
  | markReadOnly b k =>
    simp only [step, markReadOnly]; split
    · exact .refl h
    · rename_i hb; exact keeps_set hb rfl
  | mergeConfig b c =>
    simp only [step, mergeConfig]; split
    · exact .refl h
    · exact mergeLoop_keeps _ _ _ _
  | setLocation => exact absurd trivial ht
  | subblock b n =>
    simp only [step, subblock]; split
    · exact .refl h
    · rename_i keys _
      have := subLoop_keeps b h.length n keys (h ++ [mkBlock n none])
      split <;> rename_i e
      · exact .refl h
      · rw [e] at this
        exact keeps_trans (by simp) (keeps_append _ _) this

/-- Blocks made by `empty_config` and `subblock` start without locations: a copy does not inherit them. -/
theorem C73_copies_have_none (h : Heap) (b : Nat) (n : Str) (k : Str) :
    getLocation (emptyConfig h n).1 h.length k = .ok none ∧
    ∀ s, (subblock h b n).2 = .ok s → getLocation (subblock h b n).1 s k = .ok none := by
  refine ⟨by simp [emptyConfig, getLocation, mkBlock, OMap.find?], ?_⟩
  intro s hs
  unfold subblock at hs ⊢
  split at hs
  · cases hs
  · rename_i keys e1
    have := subLoop_keeps b h.length n keys (h ++ [mkBlock n none])
    split at hs
    · cases hs
    · rename_i e2
      cases hs
      rw [e2] at this
      simp only at this ⊢
      rw [this h.length k (by simp)]
      simp [getLocation, mkBlock, OMap.find?]

example : let h := (setLocation demo 0 (c!"a:b:x") (c!"f.conf", 3)).1
    getLocation h 0 (c!"a:b:x") = .ok (some (c!"f.conf", 3)) ∧
    getLocation h 2 (c!"x") = .ok none ∧ (unsetValue h 2 (c!"x")).2 = .ok () ∧
    getLocation (unsetValue h 2 (c!"x")).1 0 (c!"a:b:x") = .ok none := by decide +kernel

end Vital.Config
