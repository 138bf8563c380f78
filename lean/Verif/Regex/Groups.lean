/-
  The positions recorded for groups.
-/
import Verif.Regex.Grammar
import Verif.Regex.Find

namespace Vital.Regex

/-- The expression has a group of this number with this inside. -/
inductive Rx.Has : Rx → Nat → Rx → Prop where
  | here {no r} : Has (.group no r) no r
  | group {m r no s} : Has r no s → Has (.group m r) no s
  | star {r no s} : Has r no s → Has (.star r) no s
  | plus {r no s} : Has r no s → Has (.plus r) no s
  | opt {r no s} : Has r no s → Has (.opt r) no s
  | catl {a b no s} : Has a no s → Has (.cat a b) no s
  | catr {a b no s} : Has b no s → Has (.cat a b) no s
  | altl {a b no s} : Has a no s → Has (.alt a b) no s
  | altr {a b no s} : Has b no s → Has (.alt a b) no s

/-- Groups are numbered from `lo` on in the order of their opening parentheses, the next number is `hi`. -/
def Rx.Numbered : Rx → Nat → Nat → Prop
  | .group no r, lo, hi => no = lo ∧ r.Numbered (lo + 1) hi
  | .star r, lo, hi => r.Numbered lo hi
  | .plus r, lo, hi => r.Numbered lo hi
  | .opt r, lo, hi => r.Numbered lo hi
  | .cat a b, lo, hi => ∃ mid, a.Numbered lo mid ∧ b.Numbered mid hi
  | .alt a b, lo, hi => ∃ mid, a.Numbered lo mid ∧ b.Numbered mid hi
  | _, lo, hi => lo = hi

theorem Syn.numbered {k : Kind} {t : List Nat} {r : Rx} {n m : Nat} (h : Syn k t r n m) : r.Numbered n m := by
  induction h with
  | group _ _ ih => exact ⟨rfl, ih⟩
  | one _ ih => exact ih
  | star _ _ ih => exact ih
  | plus _ _ ih => exact ih
  | opt _ ih => exact ih
  | cons _ _ ih1 ih2 => exact ⟨_, ih1, ih2⟩
  | last _ ih => exact ih
  | alt _ _ ih1 ih2 => exact ⟨_, ih1, ih2⟩
  | _ => rfl

theorem Rx.Numbered.le {r : Rx} : ∀ {lo hi}, r.Numbered lo hi → lo ≤ hi := by
  induction r with
  | group no r ih => intro lo hi h; have := ih h.2; omega
  | star r ih => intro lo hi h; exact ih h
  | plus r ih => intro lo hi h; exact ih h
  | opt r ih => intro lo hi h; exact ih h
  | cat a b iha ihb => intro lo hi ⟨mid, h1, h2⟩; have := iha h1; have := ihb h2; omega
  | alt a b iha ihb => intro lo hi ⟨mid, h1, h2⟩; have := iha h1; have := ihb h2; omega
  | _ => intro lo hi h; exact Nat.le_of_eq h

/-- The number of the group of an event. -/
def Evt.no : Evt → Nat
  | .opn no _ => no
  | .cls no _ => no

/-- The events of one group. -/
def evs (no : Nat) (tr : List Evt) : List Evt := tr.filter (fun e => e.no == no)

theorem evs_append (no : Nat) (a b : List Evt) : evs no (a ++ b) = evs no a ++ evs no b := List.filter_append ..

/-- Visits of a group: entered, left, entered again and so on, each time around a match of the inside. -/
inductive Visits (text : List Nat) (sub : Rx) (no : Nat) : Nat → Nat → List Evt → Prop where
  | nil {i j} : i ≤ j → Visits text sub no i j []
  | cons {i a b j l} : i ≤ a → Rx.M text sub a b → Visits text sub no b j l → Visits text sub no i j (.opn no a :: .cls no b :: l)

theorem Visits.le {text sub no i j l} (h : Visits text sub no i j l) : i ≤ j := by
  induction h with
  | nil h => exact h
  | cons h1 h2 _ ih => have := M_range h2; omega

theorem Visits.append {text sub no i j k l l'} (h : Visits text sub no i j l) (h' : Visits text sub no j k l') : Visits text sub no i k (l ++ l') := by
  induction h with
  | nil h =>
    cases h' with
    | nil h'' => exact .nil (by omega)
    | cons h1 h2 h3 => exact .cons (by omega) h2 h3
  | cons h1 h2 _ ih => exact .cons h1 h2 (ih h')

/-- Events are those of groups of the expression. -/
theorem ways_nums {text : List Nat} {r : Rx} : ∀ {lo hi}, r.Numbered lo hi → ∀ i p, p ∈ ways text r i → ∀ e ∈ p.2, lo ≤ e.no ∧ e.no < hi := by
  have hrep : ∀ {f : Nat → List Way} {lo hi}, (∀ i p, p ∈ f i → ∀ e ∈ p.2, lo ≤ Evt.no e ∧ Evt.no e < hi) →
      ∀ k i p, p ∈ repW f k i → ∀ e ∈ p.2, lo ≤ Evt.no e ∧ Evt.no e < hi := by
    intro f lo hi hf k
    induction k with
    | zero => intro i p hp; simp [repW] at hp; subst hp; simp
    | succ k ih =>
      intro i p hp e he
      simp only [repW, List.mem_append, mem_seqW, List.mem_singleton] at hp
      rcases hp with ⟨a, ha, b, hb, rfl⟩ | rfl
      · simp at he; exact he.elim (hf i a ha e) (ih a.1 b hb e)
      · simp at he
  have leaf : ∀ {l : List Way}, (∀ p ∈ l, p.2 = []) → ∀ {lo hi : Nat}, ∀ p ∈ l, ∀ e ∈ p.2, lo ≤ Evt.no e ∧ Evt.no e < hi := by
    intro l hl lo hi p hp e he; rw [hl p hp] at he; cases he
  induction r with
  | chr c => intro lo hi _ i; exact leaf (by intro p hp; simp only [ways] at hp; split at hp <;> simp at hp; subst hp; rfl)
  | any => intro lo hi _ i; exact leaf (by intro p hp; simp only [ways] at hp; split at hp <;> simp at hp; subst hp; rfl)
  | set neg l =>
    intro lo hi _ i
    refine leaf ?_
    intro p hp; simp only [ways] at hp
    split at hp
    · simp at hp
    · split at hp <;> simp at hp; subst hp; rfl
  | bol => intro lo hi _ i; exact leaf (by intro p hp; simp only [ways] at hp; split at hp <;> simp at hp; subst hp; rfl)
  | eol => intro lo hi _ i; exact leaf (by intro p hp; simp only [ways] at hp; split at hp <;> simp at hp; subst hp; rfl)
  | eps => intro lo hi _ i; exact leaf (by intro p hp; simp [ways] at hp; subst hp; rfl)
  | group no r ih =>
    intro lo hi h i p hp e he
    simp only [ways, List.mem_map] at hp
    obtain ⟨q, hq, rfl⟩ := hp
    have hle := h.2.le
    obtain ⟨rfl, h2⟩ := h
    simp at he
    rcases he with rfl | he | rfl
    · simp [Evt.no]; omega
    · have := ih h2 i q hq e he; omega
    · simp [Evt.no]; omega
  | star r ih => intro lo hi h i p hp; exact hrep (ih h) _ i p hp
  | plus r ih =>
    intro lo hi h i p hp e he
    simp only [ways, mem_seqW] at hp
    obtain ⟨a, ha, b, hb, rfl⟩ := hp
    simp at he; exact he.elim (ih h i a ha e) (hrep (ih h) _ a.1 b hb e)
  | opt r ih =>
    intro lo hi h i p hp e he
    simp only [ways, List.mem_append, List.mem_singleton] at hp
    rcases hp with hp | rfl
    · exact ih h i p hp e he
    · simp at he
  | cat a b iha ihb =>
    intro lo hi ⟨mid, h1, h2⟩ i p hp e he
    have l1 := h1.le
    have l2 := h2.le
    simp only [ways, mem_seqW] at hp
    obtain ⟨x, hx, y, hy, rfl⟩ := hp
    simp at he
    rcases he with he | he
    · have := iha h1 i x hx e he; omega
    · have := ihb h2 x.1 y hy e he; omega
  | alt a b iha ihb =>
    intro lo hi ⟨mid, h1, h2⟩ i p hp e he
    have l1 := h1.le
    have l2 := h2.le
    simp only [ways, List.mem_append] at hp
    rcases hp with hp | hp
    · have := iha h1 i p hp e he; omega
    · have := ihb h2 i p hp e he; omega

theorem evs_out {text : List Nat} {r : Rx} {lo hi no : Nat} (h : r.Numbered lo hi) (hno : no < lo ∨ hi ≤ no) {i : Nat} {p : Way} (hp : p ∈ ways text r i) :
    evs no p.2 = [] := by
  simp only [evs, List.filter_eq_nil_iff, beq_iff_eq]
  intro e he heq
  have := ways_nums h i p hp e he
  omega

/-- The events of each group are visits. -/
theorem ways_visits {text : List Nat} {r : Rx} : ∀ {lo hi}, r.Numbered lo hi → ∀ no,
    (∃ sub, r.Has no sub ∧ ∀ i, i ≤ text.length → ∀ p ∈ ways text r i, Visits text sub no i p.1 (evs no p.2)) ∨
    (∀ i, ∀ p ∈ ways text r i, evs no p.2 = []) := by
  have hrepN : ∀ {f : Nat → List Way} {no}, (∀ i p, p ∈ f i → evs no p.2 = []) → ∀ k i p, p ∈ repW f k i → evs no p.2 = [] := by
    intro f no hf k
    induction k with
    | zero => intro i p hp; simp [repW] at hp; subst hp; rfl
    | succ k ih =>
      intro i p hp
      simp only [repW, List.mem_append, mem_seqW, List.mem_singleton] at hp
      rcases hp with ⟨a, ha, b, hb, rfl⟩ | rfl
      · rw [evs_append, hf i a ha, ih a.1 b hb]; rfl
      · rfl
  have hrepV : ∀ {s : Rx} {no sub}, (∀ i, i ≤ text.length → ∀ p ∈ ways text s i, Visits text sub no i p.1 (evs no p.2)) →
      ∀ k i, i ≤ text.length → ∀ p ∈ repW (ways text s) k i, Visits text sub no i p.1 (evs no p.2) := by
    intro s no sub hf k
    induction k with
    | zero => intro i hi p hp; simp [repW] at hp; subst hp; exact .nil (Nat.le_refl _)
    | succ k ih =>
      intro i hi p hp
      simp only [repW, List.mem_append, mem_seqW, List.mem_singleton] at hp
      rcases hp with ⟨a, ha, b, hb, rfl⟩ | rfl
      · rw [evs_append]; exact (hf i hi a ha).append (ih a.1 (ways_range s i hi a ha).2 b hb)
      · exact .nil (Nat.le_refl _)
  have leaf : ∀ {l : Nat → List Way} {no}, (∀ i, ∀ p ∈ l i, p.2 = []) → ∀ i, ∀ p ∈ l i, evs no p.2 = [] := by
    intro l no hl i p hp; rw [hl i p hp]; rfl
  induction r with
  | chr c => intro lo hi _ no; exact Or.inr (leaf (by intro i p hp; simp only [ways] at hp; split at hp <;> simp at hp; subst hp; rfl))
  | any => intro lo hi _ no; exact Or.inr (leaf (by intro i p hp; simp only [ways] at hp; split at hp <;> simp at hp; subst hp; rfl))
  | set neg l =>
    intro lo hi _ no
    refine Or.inr (leaf ?_)
    intro i p hp; simp only [ways] at hp
    split at hp
    · simp at hp
    · split at hp <;> simp at hp; subst hp; rfl
  | bol => intro lo hi _ no; exact Or.inr (leaf (by intro i p hp; simp only [ways] at hp; split at hp <;> simp at hp; subst hp; rfl))
  | eol => intro lo hi _ no; exact Or.inr (leaf (by intro i p hp; simp only [ways] at hp; split at hp <;> simp at hp; subst hp; rfl))
  | eps => intro lo hi _ no; exact Or.inr (leaf (by intro i p hp; simp [ways] at hp; subst hp; rfl))
  | group m r ih =>
    intro lo hi ⟨hm, h⟩ no
    subst hm
    by_cases hno : no = m
    · subst hno
      refine Or.inl ⟨r, .here, fun i hi p hp => ?_⟩
      simp only [ways, List.mem_map] at hp
      obtain ⟨q, hq, rfl⟩ := hp
      have hz := evs_out h (no := no) (Or.inl (by omega)) hq
      have : evs no (Evt.opn no i :: q.2 ++ [Evt.cls no q.1]) = [.opn no i, .cls no q.1] := by
        rw [evs_append, show evs no (Evt.opn no i :: q.2) = .opn no i :: evs no q.2 by simp [evs, Evt.no], hz]
        simp [evs, Evt.no]
      simp only [this]
      exact .cons (Nat.le_refl _) (ways_M r i hi q hq) (.nil (Nat.le_refl _))
    · have e : ∀ i (q : Way), evs no (Evt.opn m i :: q.2 ++ [Evt.cls m q.1]) = evs no q.2 := by
        intro i q
        have hm : (m == no) = false := by simpa using fun h => hno h.symm
        rw [evs_append, show evs no (Evt.opn m i :: q.2) = evs no q.2 by simp [evs, Evt.no, hm]]
        simp [evs, Evt.no, hm]
      rcases ih h no with ⟨sub, h1, h2⟩ | h2
      · refine Or.inl ⟨sub, .group h1, fun i hi p hp => ?_⟩
        simp only [ways, List.mem_map] at hp
        obtain ⟨q, hq, rfl⟩ := hp
        simp only [e]; exact h2 i hi q hq
      · refine Or.inr (fun i p hp => ?_)
        simp only [ways, List.mem_map] at hp
        obtain ⟨q, hq, rfl⟩ := hp
        simp only [e]; exact h2 i q hq
  | star r ih =>
    intro lo hi h no
    rcases ih h no with ⟨sub, h1, h2⟩ | h2
    · exact Or.inl ⟨sub, .star h1, fun i hi p hp => hrepV h2 _ i hi p hp⟩
    · exact Or.inr (fun i p hp => hrepN h2 _ i p hp)
  | plus r ih =>
    intro lo hi h no
    rcases ih h no with ⟨sub, h1, h2⟩ | h2
    · refine Or.inl ⟨sub, .plus h1, fun i hi p hp => ?_⟩
      simp only [ways, mem_seqW] at hp
      obtain ⟨a, ha, b, hb, rfl⟩ := hp
      rw [evs_append]
      exact (h2 i hi a ha).append (hrepV h2 _ a.1 (ways_range r i hi a ha).2 b hb)
    · refine Or.inr (fun i p hp => ?_)
      simp only [ways, mem_seqW] at hp
      obtain ⟨a, ha, b, hb, rfl⟩ := hp
      rw [evs_append, h2 i a ha, hrepN h2 _ a.1 b hb]; rfl
  | opt r ih =>
    intro lo hi h no
    rcases ih h no with ⟨sub, h1, h2⟩ | h2
    · refine Or.inl ⟨sub, .opt h1, fun i hi p hp => ?_⟩
      simp only [ways, List.mem_append, List.mem_singleton] at hp
      rcases hp with hp | rfl
      · exact h2 i hi p hp
      · exact .nil (Nat.le_refl _)
    · refine Or.inr (fun i p hp => ?_)
      simp only [ways, List.mem_append, List.mem_singleton] at hp
      rcases hp with hp | rfl
      · exact h2 i p hp
      · rfl
  | cat a b iha ihb =>
    intro lo hi ⟨mid, h1, h2⟩ no
    rcases Nat.lt_or_ge no mid with hno | hno
    · rcases iha h1 no with ⟨sub, g1, g2⟩ | g2
      · refine Or.inl ⟨sub, .catl g1, fun i hi p hp => ?_⟩
        simp only [ways, mem_seqW] at hp
        obtain ⟨x, hx, y, hy, rfl⟩ := hp
        rw [evs_append, evs_out h2 (Or.inl hno) hy]
        exact (g2 i hi x hx).append (.nil (ways_range b x.1 (ways_range a i hi x hx).2 y hy).1)
      · refine Or.inr (fun i p hp => ?_)
        simp only [ways, mem_seqW] at hp
        obtain ⟨x, hx, y, hy, rfl⟩ := hp
        rw [evs_append, evs_out h2 (Or.inl hno) hy, g2 i x hx]; rfl
    · rcases ihb h2 no with ⟨sub, g1, g2⟩ | g2
      · refine Or.inl ⟨sub, .catr g1, fun i hi p hp => ?_⟩
        simp only [ways, mem_seqW] at hp
        obtain ⟨x, hx, y, hy, rfl⟩ := hp
        rw [evs_append, evs_out h1 (Or.inr hno) hx]
        have hr := ways_range a i hi x hx
        exact (Visits.nil hr.1).append (g2 x.1 hr.2 y hy)
      · refine Or.inr (fun i p hp => ?_)
        simp only [ways, mem_seqW] at hp
        obtain ⟨x, hx, y, hy, rfl⟩ := hp
        rw [evs_append, evs_out h1 (Or.inr hno) hx, g2 x.1 y hy]; rfl
  | alt a b iha ihb =>
    intro lo hi ⟨mid, h1, h2⟩ no
    rcases Nat.lt_or_ge no mid with hno | hno
    · rcases iha h1 no with ⟨sub, g1, g2⟩ | g2
      · refine Or.inl ⟨sub, .altl g1, fun i hi p hp => ?_⟩
        simp only [ways, List.mem_append] at hp
        rcases hp with hp | hp
        · exact g2 i hi p hp
        · rw [evs_out h2 (Or.inl hno) hp]; exact .nil (ways_range b i hi p hp).1
      · refine Or.inr (fun i p hp => ?_)
        simp only [ways, List.mem_append] at hp
        exact hp.elim (g2 i p) (evs_out h2 (Or.inl hno))
    · rcases ihb h2 no with ⟨sub, g1, g2⟩ | g2
      · refine Or.inl ⟨sub, .altr g1, fun i hi p hp => ?_⟩
        simp only [ways, List.mem_append] at hp
        rcases hp with hp | hp
        · rw [evs_out h1 (Or.inr hno) hp]; exact .nil (ways_range a i hi p hp).1
        · exact g2 i hi p hp
      · refine Or.inr (fun i p hp => ?_)
        simp only [ways, List.mem_append] at hp
        exact hp.elim (evs_out h1 (Or.inr hno)) (g2 i p)

/-! ### What is recorded -/

/-- The position at which the group is entered (left) by this event. -/
def Evt.enters (no : Nat) : Evt → Option Nat
  | .opn m pos => if m = no then some pos else none
  | .cls _ _ => none
def Evt.leaves (no : Nat) : Evt → Option Nat
  | .opn _ _ => none
  | .cls m pos => if m = no then some pos else none

/-- Recorded are the last entering and the last leaving. -/
theorem capsOf_eq (tr : List Evt) (no : Nat) :
    (capsOf tr).st no = (tr.filterMap (Evt.enters no)).getLast? ∧ (capsOf tr).en no = (tr.filterMap (Evt.leaves no)).getLast? := by
  induction tr with
  | nil => exact ⟨rfl, rfl⟩
  | cons e tr ih =>
    have hc : capsOf (e :: tr) = e.note (capsOf tr) := rfl
    rw [hc]
    have gl : ∀ (x : Nat) (l : List Nat), (x :: l).getLast? = match l.getLast? with | none => some x | some y => some y := by
      intro x l
      rw [List.getLast?_cons]; cases l.getLast? <;> rfl
    cases e with
    | opn m pos =>
      constructor
      · by_cases hm : m = no
        · subst hm
          rw [List.filterMap_cons_some (show Evt.enters m (.opn m pos) = some pos by simp [Evt.enters]), gl, ← ih.1]
          simp only [Evt.note, Caps.setSt]
          cases hs : (capsOf tr).st m <;> simp [hs]
        · rw [List.filterMap_cons_none (show Evt.enters no (.opn m pos) = none by simp [Evt.enters, hm]), ← ih.1]
          simp only [Evt.note, Caps.setSt]
          split
          · simp; intro h; omega
          · rfl
      · rw [List.filterMap_cons_none (show Evt.leaves no (.opn m pos) = none from rfl), ← ih.2]
        simp only [Evt.note, Caps.setSt]
        split <;> rfl
    | cls m pos =>
      constructor
      · rw [List.filterMap_cons_none (show Evt.enters no (.cls m pos) = none from rfl), ← ih.1]
        simp only [Evt.note, Caps.setEn]
        split <;> rfl
      · by_cases hm : m = no
        · subst hm
          rw [List.filterMap_cons_some (show Evt.leaves m (.cls m pos) = some pos by simp [Evt.leaves]), gl, ← ih.2]
          simp only [Evt.note, Caps.setEn]
          cases hs : (capsOf tr).en m <;> simp [hs]
        · rw [List.filterMap_cons_none (show Evt.leaves no (.cls m pos) = none by simp [Evt.leaves, hm]), ← ih.2]
          simp only [Evt.note, Caps.setEn]
          split
          · simp; intro h; omega
          · rfl

theorem filterMap_evs {α : Type} (no : Nat) (f : Evt → Option α) (hf : ∀ e : Evt, e.no ≠ no → f e = none) (tr : List Evt) :
    tr.filterMap f = (evs no tr).filterMap f := by
  induction tr with
  | nil => rfl
  | cons e tr ih =>
    by_cases he : e.no = no
    · rw [show evs no (e :: tr) = e :: evs no tr by simp [evs, he]]
      simp only [List.filterMap_cons, ih]
    · rw [show evs no (e :: tr) = evs no tr by simp [evs, he], List.filterMap_cons_none (hf e he), ih]

/-- The last visit. -/
theorem Visits.last {text sub no i j l} (h : Visits text sub no i j l) :
    (l.filterMap (Evt.enters no)).getLast? = none ∧ (l.filterMap (Evt.leaves no)).getLast? = none ∨
    ∃ a b, (l.filterMap (Evt.enters no)).getLast? = some a ∧ (l.filterMap (Evt.leaves no)).getLast? = some b ∧ i ≤ a ∧ a ≤ b ∧ b ≤ j ∧ Rx.M text sub a b := by
  induction h with
  | nil _ => exact Or.inl ⟨rfl, rfl⟩
  | cons h1 h2 h3 ih =>
    rename_i i a b j l
    have hr := M_range h2
    have e1 : (Evt.opn no a :: Evt.cls no b :: l).filterMap (Evt.enters no) = a :: l.filterMap (Evt.enters no) := by
      simp [List.filterMap_cons, Evt.enters]
    have e2 : (Evt.opn no a :: Evt.cls no b :: l).filterMap (Evt.leaves no) = b :: l.filterMap (Evt.leaves no) := by
      simp [List.filterMap_cons, Evt.leaves]
    rw [e1, e2, List.getLast?_cons, List.getLast?_cons]
    right
    rcases ih with ⟨g1, g2⟩ | ⟨c, d, g1, g2, g3, g4, g5, g6⟩
    · rw [g1, g2]; exact ⟨a, b, rfl, rfl, h1, hr.1, h3.le, h2⟩
    · rw [g1, g2]; exact ⟨c, d, rfl, rfl, by omega, g4, g5, g6⟩

/-- What is recorded for a group. -/
theorem caps_group {text : List Nat} {r : Rx} {lo hi : Nat} (h : r.Numbered lo hi) {i : Nat} (hi : i ≤ text.length) {p : Way} (hp : p ∈ ways text r i) (no : Nat) :
    ((capsOf p.2).st no = none ∧ (capsOf p.2).en no = none) ∨
    ∃ a b sub, (capsOf p.2).st no = some a ∧ (capsOf p.2).en no = some b ∧ i ≤ a ∧ a ≤ b ∧ b ≤ p.1 ∧ r.Has no sub ∧ Rx.M text sub a b := by
  have e1 : ∀ e : Evt, e.no ≠ no → e.enters no = none := by
    intro e he; cases e <;> simp [Evt.enters, Evt.no] at he ⊢; omega
  have e2 : ∀ e : Evt, e.no ≠ no → e.leaves no = none := by
    intro e he; cases e <;> simp [Evt.leaves, Evt.no] at he ⊢; omega
  rw [(capsOf_eq p.2 no).1, (capsOf_eq p.2 no).2, filterMap_evs no _ e1, filterMap_evs no _ e2]
  rcases ways_visits h no with ⟨sub, h1, h2⟩ | h2
  · rcases (h2 i hi p hp).last with h | ⟨a, b, g1, g2, g3, g4, g5, g6⟩
    · exact Or.inl h
    · exact Or.inr ⟨a, b, sub, g1, g2, g3, g4, g5, h1, g6⟩
  · rw [h2 i p hp]; exact Or.inl ⟨rfl, rfl⟩

end Vital.Regex
