import Verif.CApi.Lifetimes
/-
  Property C248: the objects behind the C handles exist exactly as long as they are needed.
-/
namespace Vital.CApi.Life
open Vital Vital.CApi

/-! ### Sums -/

def tot : Nat → (Nat → Nat) → Nat
  | 0, _ => 0
  | n + 1, f => tot n f + f n

theorem tot_congr {n : Nat} {f g : Nat → Nat} (h : ∀ s, s < n → f s = g s) : tot n f = tot n g := by
  induction n with
  | zero => rfl
  | succ n ih => rw [tot, tot, ih (fun s hs => h s (by omega)), h n (by omega)]

theorem tot_change {n : Nat} {f g : Nat → Nat} {k : Nat} (hk : k < n) (h : ∀ s, s ≠ k → f s = g s) : tot n f + g k = tot n g + f k := by
  induction n with
  | zero => omega
  | succ n ih =>
    rw [tot, tot]
    by_cases e : k = n
    · subst e
      rw [tot_congr (fun s hs => h s (by omega))]
      omega
    · have := ih (by omega)
      have := h n (by omega)
      omega

theorem tot_ne {n : Nat} {f : Nat → Nat} : tot n f ≠ 0 ↔ ∃ s, s < n ∧ f s ≠ 0 := by
  induction n with
  | zero => simp [tot]
  | succ n ih =>
    rw [tot]
    constructor
    · intro h
      by_cases h1 : f n = 0
      · obtain ⟨s, hs, h2⟩ := ih.1 (by omega)
        exact ⟨s, by omega, h2⟩
      · exact ⟨n, by omega, h1⟩
    · rintro ⟨s, hs, h2⟩
      by_cases e : s = n
      · subst e; omega
      · have := ih.2 ⟨s, by omega, h2⟩
        omega

/-! ### The caches -/

structure CacheOK (c : Cache) (addr refs : Nat → Nat) : Prop where
  sound : ∀ p sp, c.cache.find? p = some sp → sp.ptr = p ∧ 0 < refs sp.tag ∧ addr sp.tag = p
  complete : ∀ i, 0 < refs i → c.cache.find? (addr i) = some ⟨addr i, i⟩ ∧ c.count.find? (addr i) = some (refs i)

theorem contains_eq {c : Cache} {p : Nat} : c.cache.contains p = (c.cache.find? p).isSome := rfl

theorem CacheOK.held {c : Cache} {addr refs : Nat → Nat} (h : CacheOK c addr refs) {i : Nat} (hi : 0 < refs i) : c.cache.contains (addr i) = true := by
  rw [contains_eq, (h.complete i hi).1]; rfl

theorem store_ok {c : Cache} {addr refs : Nat → Nat} (h : CacheOK c addr refs) {i : Nat} (h0 : addr i ≠ 0)
    (hu : ∀ j, 0 < refs j → addr j = addr i → j = i) : CacheOK (store c ⟨addr i, i⟩).1 addr (upd refs i (refs i + 1)) ∧
      (c.cache.contains (addr i) = true ↔ 0 < refs i) := by
  have hc : c.cache.contains (addr i) = true ↔ 0 < refs i := by
    constructor
    · intro hc
      rw [contains_eq] at hc
      obtain ⟨sp, hsp⟩ := Option.isSome_iff_exists.1 hc
      obtain ⟨_, h1, h2⟩ := h.sound _ _ hsp
      rw [← hu _ h1 h2]; exact h1
    · exact h.held
  refine ⟨?_, hc⟩
  unfold store
  rw [if_neg h0]
  by_cases hr : 0 < refs i
  · rw [if_pos (hc.2 hr)]
    constructor
    · intro p sp hp
      obtain ⟨h1, h2, h3⟩ := h.sound p sp hp
      refine ⟨h1, ?_, h3⟩
      unfold upd
      split <;> omega
    · intro j hj
      by_cases e : j = i
      · subst e
        refine ⟨(h.complete j hr).1, ?_⟩
        simp only [OMap.find?_insert, (h.complete j hr).2, upd, if_true, Option.getD_some]
      · simp only [upd, if_neg e] at hj ⊢
        refine ⟨(h.complete j hj).1, ?_⟩
        have hne : addr j ≠ addr i := fun he => e (hu j hj he)
        simp only [OMap.find?_insert, if_neg hne]
        exact (h.complete j hj).2
  · rw [if_neg (fun hh => hr (hc.1 hh))]
    constructor
    · intro p sp hp
      simp only [OMap.find?_insert] at hp
      by_cases e : p = addr i
      · rw [if_pos e] at hp
        cases hp
        refine ⟨e.symm, ?_, e.symm⟩
        simp [upd]
      · rw [if_neg e] at hp
        obtain ⟨h1, h2, h3⟩ := h.sound p sp hp
        refine ⟨h1, ?_, h3⟩
        unfold upd
        split <;> omega
    · intro j hj
      by_cases e : j = i
      · subst e
        have : refs j = 0 := by omega
        simp [OMap.find?_insert, upd, this]
      · simp only [upd, if_neg e] at hj ⊢
        have hne : addr j ≠ addr i := fun he => e (hu j hj he)
        simp only [OMap.find?_insert, if_neg hne]
        exact h.complete j hj

theorem erase_ok {c : Cache} {addr refs : Nat → Nat} (h : CacheOK c addr refs) {i : Nat} (h0 : addr i ≠ 0) (hr : 0 < refs i) :
    CacheOK (erase c (addr i)).1 addr (upd refs i (refs i - 1)) ∧ ((erase c (addr i)).1.cache.contains (addr i) = true ↔ 1 < refs i) := by
  have hu : ∀ j, 0 < refs j → addr j = addr i → j = i := by
    intro j hj e
    have h1 := (h.complete j hj).1
    rw [e, (h.complete i hr).1] at h1
    have := Option.some.inj h1
    simp only [Sptr.mk.injEq] at this
    exact this.2.symm
  unfold erase
  rw [if_neg h0, (h.complete i hr).1]
  simp only [(h.complete i hr).2, Option.getD_some, dec]
  rw [if_neg (by omega : ¬ refs i = 0)]
  by_cases h1 : refs i = 1
  · rw [if_pos (by omega)]
    refine ⟨⟨?_, ?_⟩, ?_⟩
    · intro p sp hp
      simp only [OMap.find?_erase] at hp
      by_cases e : p = addr i
      · rw [if_pos e] at hp; cases hp
      · rw [if_neg e] at hp
        obtain ⟨h2, h3, h4⟩ := h.sound p sp hp
        refine ⟨h2, ?_, h4⟩
        have : sp.tag ≠ i := fun he => e (by rw [← he]; exact h4.symm)
        simp only [upd, if_neg this]; exact h3
    · intro j hj
      by_cases e : j = i
      · subst e
        simp [upd] at hj
        omega
      · simp only [upd, if_neg e] at hj ⊢
        have hne : addr j ≠ addr i := fun he => e (hu j hj he)
        simp only [OMap.find?_erase, OMap.find?_insert, if_neg hne]
        exact h.complete j hj
    · rw [contains_eq]
      simp [OMap.find?_erase, h1]
  · rw [if_neg (by omega)]
    refine ⟨⟨?_, ?_⟩, ?_⟩
    · intro p sp hp
      obtain ⟨h2, h3, h4⟩ := h.sound p sp hp
      refine ⟨h2, ?_, h4⟩
      unfold upd
      split <;> omega
    · intro j hj
      by_cases e : j = i
      · subst e
        simp only [upd, if_true, OMap.find?_insert]
        exact ⟨(h.complete j hr).1, trivial⟩
      · simp only [upd, if_neg e] at hj ⊢
        have hne : addr j ≠ addr i := fun he => e (hu j hj he)
        simp only [OMap.find?_insert, if_neg hne]
        exact h.complete j hj
    · have := h.held hr
      constructor
      · intro _; omega
      · intro _; exact this

/-! ### The invariant, with temporary pointers -/

def bit (n : Nat) : Nat := if n = 0 then 0 else 1

/-- `lr`, `sr`: handles; `xl`, `xs`: pointers held by the running call. -/
structure Inv (m : Mem) (lr sr xl xs : Nat → Nat) : Prop where
  lcount : ∀ i, m.lcount i = bit (lr i) + tot m.ns (fun s => if m.scount s = 0 then 0 else (m.members s).count i) + xl i
  lalive : ∀ i, m.lalive i = true ↔ m.lcount i ≠ 0
  scount : ∀ s, m.scount s = bit (sr s) + xs s
  salive : ∀ s, m.salive s = true ↔ m.scount s ≠ 0
  lbound : ∀ i, m.nl ≤ i → m.lcount i = 0
  sbound : ∀ s, m.ns ≤ s → m.scount s = 0
  laddr : ∀ i, m.lcount i ≠ 0 → m.laddr i ≠ 0
  saddr : ∀ s, m.scount s ≠ 0 → m.saddr s ≠ 0
  lone : ∀ i j, m.lcount i ≠ 0 → m.lcount j ≠ 0 → m.laddr i = m.laddr j → i = j
  sone : ∀ i j, m.scount i ≠ 0 → m.scount j ≠ 0 → m.saddr i = m.saddr j → i = j
  lc : CacheOK m.leafC m.laddr lr
  sc : CacheOK m.setC m.saddr sr

/-- What the operations on existing objects leave. -/
structure Same (m m' : Mem) : Prop where
  nl : m'.nl = m.nl
  laddr : m'.laddr = m.laddr
  ns : m'.ns = m.ns
  saddr : m'.saddr = m.saddr
  members : m'.members = m.members

theorem Same.rfl' {m : Mem} : Same m m := ⟨rfl, rfl, rfl, rfl, rfl⟩

theorem Same.trans {m m' m'' : Mem} (h : Same m m') (h' : Same m' m'') : Same m m'' :=
  ⟨h'.nl.trans h.nl, h'.laddr.trans h.laddr, h'.ns.trans h.ns, h'.saddr.trans h.saddr, h'.members.trans h.members⟩

/-- Changing the use count of one leaf (and its existence with it). -/
theorem setL {m : Mem} {lr sr xl xs lr' xl' : Nat → Nat} (h : Inv m lr sr xl xs) {i n : Nat} {b : Bool} {c : Cache} (hi : m.lcount i ≠ 0)
    (hb : b = true ↔ n ≠ 0) (hc : CacheOK c m.laddr lr') (hx : ∀ j, j ≠ i → lr' j = lr j ∧ xl' j = xl j)
    (hn : n + bit (lr i) + xl i = m.lcount i + bit (lr' i) + xl' i) :
    Inv { m with lcount := upd m.lcount i n, lalive := upd m.lalive i b, leafC := c } lr' sr xl' xs where
  lcount := by
    intro j
    have := h.lcount j
    by_cases e : j = i
    · subst e
      simp only [upd, if_true]
      omega
    · simp only [upd, if_neg e]
      rw [(hx j e).1, (hx j e).2]
      exact this
  lalive := by
    intro j
    by_cases e : j = i
    · subst e; simp only [upd, if_true]; exact hb
    · simp only [upd, if_neg e]; exact h.lalive j
  scount := h.scount
  salive := h.salive
  lbound := by
    intro j hj
    by_cases e : j = i
    · subst e; exact absurd (h.lbound j hj) hi
    · simp only [upd, if_neg e]; exact h.lbound j hj
  sbound := h.sbound
  laddr := by
    intro j hj
    by_cases e : j = i
    · subst e; exact h.laddr j hi
    · simp only [upd, if_neg e] at hj; exact h.laddr j hj
  saddr := h.saddr
  lone := by
    have key : ∀ j, upd m.lcount i n j ≠ 0 → m.lcount j ≠ 0 := by
      intro j hj
      by_cases e : j = i
      · subst e; exact hi
      · simp only [upd, if_neg e] at hj; exact hj
    intro j k hj hk
    exact h.lone j k (key j hj) (key k hk)
  sone := h.sone
  lc := hc
  sc := h.sc

theorem upd_self {α : Type} (f : Nat → α) (i : Nat) : upd f i (f i) = f := by
  funext x; unfold upd; split
  · rename_i e; rw [e]
  · rfl

theorem incL_ok {m : Mem} {lr sr xl xs : Nat → Nat} (h : Inv m lr sr xl xs) {i : Nat} (hi : m.lcount i ≠ 0) :
    ∃ m', incL m i = some m' ∧ Inv m' lr sr (upd xl i (xl i + 1)) xs ∧ Same m m' ∧ m'.scount = m.scount ∧ ∀ j, m.lcount j ≠ 0 → m'.lcount j ≠ 0 := by
  unfold incL
  rw [if_pos ((h.lalive i).2 hi)]
  refine ⟨_, rfl, ?_, ⟨rfl, rfl, rfl, rfl, rfl⟩, rfl, ?_⟩
  · have := setL h (lr' := lr) (xl' := upd xl i (xl i + 1)) (n := m.lcount i + 1) (b := m.lalive i) (c := m.leafC) hi
      (by rw [(h.lalive i).2 hi]; simp) h.lc (by intro j hj; simp [upd, hj]) (by simp [upd]; omega)
    rw [upd_self] at this
    exact this
  · intro j hj
    simp only [upd]
    split <;> omega

theorem decL_ok {m : Mem} {lr sr xl xs : Nat → Nat} (h : Inv m lr sr xl xs) {i : Nat} (hi : 0 < xl i) :
    ∃ m', decL m i = some m' ∧ Inv m' lr sr (upd xl i (xl i - 1)) xs ∧ Same m m' ∧ m'.scount = m.scount := by
  have h0 : m.lcount i ≠ 0 := by have := h.lcount i; omega
  unfold decL
  rw [if_pos ((h.lalive i).2 h0)]
  by_cases h1 : m.lcount i = 1
  · rw [if_pos h1]
    refine ⟨_, rfl, ?_, ⟨rfl, rfl, rfl, rfl, rfl⟩, rfl⟩
    exact setL h (lr' := lr) (xl' := upd xl i (xl i - 1)) (n := 0) (b := false) (c := m.leafC) h0 (by simp) h.lc (by intro j hj; simp [upd, hj])
      (by simp [upd]; omega)
  · rw [if_neg h1]
    refine ⟨_, rfl, ?_, ⟨rfl, rfl, rfl, rfl, rfl⟩, rfl⟩
    have := setL h (lr' := lr) (xl' := upd xl i (xl i - 1)) (n := m.lcount i - 1) (b := m.lalive i) (c := m.leafC) h0
      (by rw [(h.lalive i).2 h0]; simp; omega) h.lc (by intro j hj; simp [upd, hj]) (by simp [upd]; omega)
    rw [upd_self] at this
    exact this

theorem inv_congr {m : Mem} {lr sr xl xs lr' sr' xl' xs' : Nat → Nat} (h : Inv m lr sr xl xs) (h1 : ∀ i, lr i = lr' i) (h2 : ∀ i, sr i = sr' i)
    (h3 : ∀ i, xl i = xl' i) (h4 : ∀ i, xs i = xs' i) : Inv m lr' sr' xl' xs' := by
  obtain rfl := funext h1
  obtain rfl := funext h2
  obtain rfl := funext h3
  obtain rfl := funext h4
  exact h

theorem count_cons_nat (a i : Nat) (l : List Nat) : (a :: l).count i = l.count i + (if i = a then 1 else 0) := by
  rw [List.count_cons]
  by_cases h : i = a
  · simp [h]
  · simp [h, Ne.symm h]

theorem eachInc_ok (l : List Nat) : ∀ {m : Mem} {lr sr xl xs : Nat → Nat}, Inv m lr sr xl xs → (∀ i ∈ l, m.lcount i ≠ 0) →
    ∃ m', each incL m l = some m' ∧ Inv m' lr sr (fun i => xl i + l.count i) xs ∧ Same m m' ∧ m'.scount = m.scount ∧ ∀ j, m.lcount j ≠ 0 → m'.lcount j ≠ 0 := by
  induction l with
  | nil => intro m lr sr xl xs h _; exact ⟨m, rfl, inv_congr h (fun _ => rfl) (fun _ => rfl) (by intro i; simp) (fun _ => rfl), .rfl', rfl, fun _ h => h⟩
  | cons a l ih =>
    intro m lr sr xl xs h hl
    obtain ⟨m1, e1, h1, s1, c1, k1⟩ := incL_ok h (hl a (by simp))
    obtain ⟨m2, e2, h2, s2, c2, k2⟩ := ih h1 (fun i hi => k1 i (hl i (by simp [hi])))
    refine ⟨m2, by simp [each, e1, e2], ?_, s1.trans s2, c2.trans c1, fun j hj => k2 j (k1 j hj)⟩
    refine inv_congr h2 (fun _ => rfl) (fun _ => rfl) ?_ (fun _ => rfl)
    intro i
    rw [count_cons_nat]
    simp only [upd]
    by_cases e : i = a
    · subst e; simp; omega
    · simp [e]

theorem eachDec_ok (l : List Nat) : ∀ {m : Mem} {lr sr xl xs : Nat → Nat}, Inv m lr sr xl xs → (∀ i, l.count i ≤ xl i) →
    ∃ m', each decL m l = some m' ∧ Inv m' lr sr (fun i => xl i - l.count i) xs ∧ Same m m' ∧ m'.scount = m.scount := by
  induction l with
  | nil => intro m lr sr xl xs h _; exact ⟨m, rfl, inv_congr h (fun _ => rfl) (fun _ => rfl) (by intro i; simp) (fun _ => rfl), .rfl', rfl⟩
  | cons a l ih =>
    intro m lr sr xl xs h hl
    obtain ⟨m1, e1, h1, s1, c1⟩ := decL_ok h (i := a) (by have := hl a; rw [count_cons_nat] at this; simp at this; omega)
    obtain ⟨m2, e2, h2, s2, c2⟩ := ih h1 (by
      intro i
      have := hl i
      rw [count_cons_nat] at this
      simp only [upd]
      by_cases e : i = a
      · subst e; simp at this ⊢; omega
      · simp [e] at this ⊢; exact this)
    refine ⟨m2, by simp [each, e1, e2], ?_, s1.trans s2, c2.trans c1⟩
    refine inv_congr h2 (fun _ => rfl) (fun _ => rfl) ?_ (fun _ => rfl)
    intro i
    rw [count_cons_nat]
    simp only [upd]
    by_cases e : i = a
    · subst e; simp; omega
    · simp [e]

/-- Changing the use count of one set. -/
theorem setS {m : Mem} {lr sr xl xs sr' xl' xs' : Nat → Nat} (h : Inv m lr sr xl xs) {i n : Nat} {b : Bool} {c : Cache} (hi : m.scount i ≠ 0)
    (hb : b = true ↔ n ≠ 0) (hc : CacheOK c m.saddr sr') (hx : ∀ j, j ≠ i → sr' j = sr j ∧ xs' j = xs j) (hn : n = bit (sr' i) + xs' i)
    (hm : ∀ j, xl' j = xl j + (if n = 0 then (m.members i).count j else 0)) :
    Inv { m with scount := upd m.scount i n, salive := upd m.salive i b, setC := c } lr sr' xl' xs' where
  lcount := by
    intro j
    have hin : i < m.ns := by
      by_cases h1 : i < m.ns
      · exact h1
      · exact absurd (h.sbound i (by omega)) hi
    have := tot_change (f := fun s => if upd m.scount i n s = 0 then 0 else (m.members s).count j)
      (g := fun s => if m.scount s = 0 then 0 else (m.members s).count j) hin (by intro s hs; simp [upd, hs])
    simp only [upd, if_true, if_neg hi] at this
    have h1 := h.lcount j
    have h2 := hm j
    show m.lcount j = _
    simp only [upd] at this ⊢
    by_cases e : n = 0
    · rw [if_pos e] at h2 this
      omega
    · rw [if_neg e] at h2 this
      omega
  lalive := h.lalive
  scount := by
    intro s
    by_cases e : s = i
    · subst e; simp only [upd, if_true]; exact hn
    · simp only [upd, if_neg e, (hx s e).1, (hx s e).2]; exact h.scount s
  salive := by
    intro j
    by_cases e : j = i
    · subst e; simp only [upd, if_true]; exact hb
    · simp only [upd, if_neg e]; exact h.salive j
  lbound := h.lbound
  sbound := by
    intro j hj
    by_cases e : j = i
    · subst e; exact absurd (h.sbound j hj) hi
    · simp only [upd, if_neg e]; exact h.sbound j hj
  laddr := h.laddr
  saddr := by
    intro j hj
    by_cases e : j = i
    · subst e; exact h.saddr j hi
    · simp only [upd, if_neg e] at hj; exact h.saddr j hj
  lone := h.lone
  sone := by
    have key : ∀ j, upd m.scount i n j ≠ 0 → m.scount j ≠ 0 := by
      intro j hj
      by_cases e : j = i
      · subst e; exact hi
      · simp only [upd, if_neg e] at hj; exact hj
    intro j k hj hk
    exact h.sone j k (key j hj) (key k hk)
  lc := h.lc
  sc := hc

/-- A pointer of the running call to a set ends. -/
theorem decS_ok {m : Mem} {lr sr sr' xl xs xs' : Nat → Nat} {c : Cache} (h : Inv m lr sr xl xs) {i : Nat} (hi : m.scount i ≠ 0) (hc : CacheOK c m.saddr sr')
    (hx : ∀ j, j ≠ i → sr' j = sr j ∧ xs' j = xs j) (hn : m.scount i - 1 = bit (sr' i) + xs' i) :
    ∃ m', decS { m with setC := c } i = some m' ∧ Inv m' lr sr' xl xs' ∧ Same m m' := by
  unfold decS
  rw [if_pos ((h.salive i).2 hi)]
  by_cases h1 : m.scount i = 1
  · rw [if_pos h1]
    have h2 := setS h (sr' := sr') (xs' := xs') (xl' := fun j => xl j + (m.members i).count j) (n := 0) (b := false) (c := c) hi (by simp) hc hx
      (by omega) (by intro j; simp)
    obtain ⟨m', e, h3, s3, _⟩ := eachDec_ok (m.members i) h2 (by intro j; simp)
    refine ⟨m', e, inv_congr h3 (fun _ => rfl) (fun _ => rfl) (by intro j; simp) (fun _ => rfl), ?_⟩
    exact ⟨s3.nl, s3.laddr, s3.ns, s3.saddr, s3.members⟩
  · rw [if_neg h1]
    refine ⟨_, rfl, ?_, ⟨rfl, rfl, rfl, rfl, rfl⟩⟩
    have h2 := setS h (sr' := sr') (xs' := xs') (xl' := xl) (n := m.scount i - 1) (b := m.salive i) (c := c) hi
      (by rw [(h.salive i).2 hi]; simp; omega) hc hx hn (by intro j; rw [if_neg (by omega)]; rfl)
    rw [upd_self] at h2
    exact h2

theorem storeL_ok {m : Mem} {lr sr xl xs : Nat → Nat} (h : Inv m lr sr xl xs) {i : Nat} (hi : m.lcount i ≠ 0) :
    ∃ m', storeL m i = some m' ∧ Inv m' (upd lr i (lr i + 1)) sr xl xs ∧ Same m m' ∧ ∀ j, m.lcount j ≠ 0 → m'.lcount j ≠ 0 := by
  have hlive : ∀ j, 0 < lr j → m.lcount j ≠ 0 := by
    intro j hj
    have := h.lcount j
    unfold bit at this
    rw [if_neg (by omega)] at this
    omega
  obtain ⟨h1, h2⟩ := store_ok h.lc (i := i) (h.laddr i hi) (fun j hj he => h.lone j i (hlive j hj) hi he)
  have hcount := h.lcount i
  unfold storeL
  by_cases hc : m.leafC.cache.contains (m.laddr i) = true
  · rw [if_pos hc]
    refine ⟨_, rfl, ?_, ⟨rfl, rfl, rfl, rfl, rfl⟩, fun _ h => h⟩
    have h3 := setL h (lr' := upd lr i (lr i + 1)) (xl' := xl) (n := m.lcount i) (b := m.lalive i) (c := (store m.leafC ⟨m.laddr i, i⟩).1) hi (h.lalive i) h1
      (by intro j hj; simp [upd, hj]) (by have := h2.1 hc; simp only [upd, if_true, bit]; rw [if_neg (by omega), if_neg (by omega)])
    rw [upd_self, upd_self] at h3
    exact h3
  · rw [if_neg hc]
    unfold incL
    rw [if_pos ((h.lalive i).2 hi)]
    refine ⟨_, rfl, ?_, ⟨rfl, rfl, rfl, rfl, rfl⟩, ?_⟩
    · have h3 := setL h (lr' := upd lr i (lr i + 1)) (xl' := xl) (n := m.lcount i + 1) (b := m.lalive i) (c := (store m.leafC ⟨m.laddr i, i⟩).1) hi
        (by rw [(h.lalive i).2 hi]; simp) h1 (by intro j hj; simp [upd, hj])
        (by
          have : ¬ 0 < lr i := fun hh => hc (h2.2 hh)
          simp only [upd, if_true, bit]; rw [if_pos (by omega), if_neg (by omega)])
      rw [upd_self] at h3
      exact h3
    · intro j hj
      simp only [upd]
      split <;> omega

theorem storeS_ok {m : Mem} {lr sr xl xs : Nat → Nat} (h : Inv m lr sr xl xs) {i : Nat} (hi : m.scount i ≠ 0) :
    ∃ m', storeS m i = some m' ∧ Inv m' lr (upd sr i (sr i + 1)) xl xs ∧ Same m m' ∧ ∀ j, m.scount j ≠ 0 → m'.scount j ≠ 0 := by
  have hlive : ∀ j, 0 < sr j → m.scount j ≠ 0 := by
    intro j hj
    have := h.scount j
    unfold bit at this
    rw [if_neg (by omega)] at this
    omega
  obtain ⟨h1, h2⟩ := store_ok h.sc (i := i) (h.saddr i hi) (fun j hj he => h.sone j i (hlive j hj) hi he)
  have hcount := h.scount i
  unfold storeS
  by_cases hc : m.setC.cache.contains (m.saddr i) = true
  · rw [if_pos hc]
    refine ⟨_, rfl, ?_, ⟨rfl, rfl, rfl, rfl, rfl⟩, fun _ h => h⟩
    have h3 := setS h (sr' := upd sr i (sr i + 1)) (xs' := xs) (xl' := xl) (n := m.scount i) (b := m.salive i) (c := (store m.setC ⟨m.saddr i, i⟩).1) hi (h.salive i) h1
      (by intro j hj; simp [upd, hj]) (by have := h2.1 hc; rw [hcount]; simp only [upd, if_true, bit]; rw [if_neg (by omega), if_neg (by omega)])
      (by intro j; rw [if_neg hi]; rfl)
    rw [upd_self, upd_self] at h3
    exact h3
  · rw [if_neg hc]
    unfold incS
    rw [if_pos ((h.salive i).2 hi)]
    refine ⟨_, rfl, ?_, ⟨rfl, rfl, rfl, rfl, rfl⟩, ?_⟩
    · have h3 := setS h (sr' := upd sr i (sr i + 1)) (xs' := xs) (xl' := xl) (n := m.scount i + 1) (b := m.salive i) (c := (store m.setC ⟨m.saddr i, i⟩).1) hi
        (by rw [(h.salive i).2 hi]; simp) h1 (by intro j hj; simp [upd, hj])
        (by
          have : ¬ 0 < sr i := fun hh => hc (h2.2 hh)
          rw [hcount]
          simp only [upd, if_true, bit]; rw [if_pos (by omega), if_neg (by omega)]; omega)
        (by intro j; rw [if_neg (by omega)]; rfl)
      rw [upd_self] at h3
      exact h3
    · intro j hj
      simp only [upd]
      split <;> omega

theorem eachStore_ok (l : List Nat) : ∀ {m : Mem} {lr sr xl xs : Nat → Nat}, Inv m lr sr xl xs → (∀ i ∈ l, m.lcount i ≠ 0) →
    ∃ m', each storeL m l = some m' ∧ Inv m' (fun i => lr i + l.count i) sr xl xs ∧ Same m m' := by
  induction l with
  | nil => intro m lr sr xl xs h _; exact ⟨m, rfl, inv_congr h (by intro i; simp) (fun _ => rfl) (fun _ => rfl) (fun _ => rfl), .rfl'⟩
  | cons a l ih =>
    intro m lr sr xl xs h hl
    obtain ⟨m1, e1, h1, s1, k1⟩ := storeL_ok h (hl a (by simp))
    obtain ⟨m2, e2, h2, s2⟩ := ih h1 (fun i hi => k1 i (hl i (by simp [hi])))
    refine ⟨m2, by simp [each, e1, e2], ?_, s1.trans s2⟩
    refine inv_congr h2 ?_ (fun _ => rfl) (fun _ => rfl) (fun _ => rfl)
    intro i
    rw [count_cons_nat]
    simp only [upd]
    by_cases e : i = a
    · subst e; simp; omega
    · simp [e]

theorem dropL_ok {m : Mem} {lr sr xl xs : Nat → Nat} (h : Inv m lr sr xl xs) {i : Nat} (hi : 0 < lr i) :
    ∃ m', dropL m (m.laddr i) = some m' ∧ Inv m' (upd lr i (lr i - 1)) sr xl xs ∧ Same m m' := by
  have hcount := h.lcount i
  have hb : bit (lr i) = 1 := by unfold bit; rw [if_neg (by omega)]
  have h0 : m.lcount i ≠ 0 := by omega
  obtain ⟨h1, h2⟩ := erase_ok h.lc (i := i) (h.laddr i h0) hi
  unfold dropL
  rw [(h.lc.complete i hi).1]
  simp only
  by_cases hc : (erase m.leafC (m.laddr i)).1.cache.contains (m.laddr i) = true
  · rw [if_pos hc]
    refine ⟨_, rfl, ?_, ⟨rfl, rfl, rfl, rfl, rfl⟩⟩
    have h3 := setL h (lr' := upd lr i (lr i - 1)) (xl' := xl) (n := m.lcount i) (b := m.lalive i) (c := (erase m.leafC (m.laddr i)).1) h0 (h.lalive i) h1
      (by intro j hj; simp [upd, hj]) (by have := h2.1 hc; simp only [upd, if_true, bit]; rw [if_neg (by omega), if_neg (by omega)])
    rw [upd_self, upd_self] at h3
    exact h3
  · rw [if_neg hc]
    have hl1 : lr i = 1 := by
      have : ¬ 1 < lr i := fun hh => hc (h2.2 hh)
      omega
    unfold decL
    rw [if_pos ((h.lalive i).2 h0)]
    by_cases h5 : m.lcount i = 1
    · rw [if_pos h5]
      refine ⟨_, rfl, ?_, ⟨rfl, rfl, rfl, rfl, rfl⟩⟩
      exact setL h (lr' := upd lr i (lr i - 1)) (xl' := xl) (n := 0) (b := false) (c := (erase m.leafC (m.laddr i)).1) h0 (by simp) h1
        (by intro j hj; simp [upd, hj]) (by simp [upd, bit, hl1]; omega)
    · rw [if_neg h5]
      refine ⟨_, rfl, ?_, ⟨rfl, rfl, rfl, rfl, rfl⟩⟩
      have h3 := setL h (lr' := upd lr i (lr i - 1)) (xl' := xl) (n := m.lcount i - 1) (b := m.lalive i) (c := (erase m.leafC (m.laddr i)).1) h0
        (by rw [(h.lalive i).2 h0]; simp; omega) h1 (by intro j hj; simp [upd, hj]) (by simp [upd, bit, hl1]; omega)
      rw [upd_self] at h3
      exact h3

theorem dropS_ok {m : Mem} {lr sr xl xs : Nat → Nat} (h : Inv m lr sr xl xs) {i : Nat} (hi : 0 < sr i) :
    ∃ m', dropS m (m.saddr i) = some m' ∧ Inv m' lr (upd sr i (sr i - 1)) xl xs ∧ Same m m' := by
  have hcount := h.scount i
  have hb : bit (sr i) = 1 := by unfold bit; rw [if_neg (by omega)]
  have h0 : m.scount i ≠ 0 := by omega
  obtain ⟨h1, h2⟩ := erase_ok h.sc (i := i) (h.saddr i h0) hi
  unfold dropS
  rw [(h.sc.complete i hi).1]
  simp only
  by_cases hc : (erase m.setC (m.saddr i)).1.cache.contains (m.saddr i) = true
  · rw [if_pos hc]
    refine ⟨_, rfl, ?_, ⟨rfl, rfl, rfl, rfl, rfl⟩⟩
    have h3 := setS h (sr' := upd sr i (sr i - 1)) (xs' := xs) (xl' := xl) (n := m.scount i) (b := m.salive i) (c := (erase m.setC (m.saddr i)).1) h0 (h.salive i) h1
      (by intro j hj; simp [upd, hj]) (by have := h2.1 hc; rw [hcount]; simp only [upd, if_true, bit]; rw [if_neg (by omega), if_neg (by omega)])
      (by intro j; rw [if_neg h0]; rfl)
    rw [upd_self, upd_self] at h3
    exact h3
  · rw [if_neg hc]
    have hl1 : sr i = 1 := by
      have : ¬ 1 < sr i := fun hh => hc (h2.2 hh)
      omega
    exact decS_ok h (sr' := upd sr i (sr i - 1)) (xs' := xs) h0 h1 (by intro j hj; simp [upd, hj]) (by simp [upd, bit, hl1]; omega)

theorem allocL_ok {m : Mem} {lr sr xl xs : Nat → Nat} (h : Inv m lr sr xl xs) {a : Nat} (h0 : a ≠ 0) (ha : ∀ i, m.lcount i ≠ 0 → m.laddr i ≠ a) :
    Inv (allocL m a) lr sr (upd xl m.nl (xl m.nl + 1)) xs := by
  have hz := h.lcount m.nl
  rw [h.lbound m.nl (Nat.le_refl _)] at hz
  have hlr : ∀ j, 0 < lr j → j ≠ m.nl := by
    rintro j hj rfl
    unfold bit at hz
    rw [if_neg (by omega)] at hz
    omega
  constructor
  · intro i
    have := h.lcount i
    by_cases e : i = m.nl
    · subst e
      show upd m.lcount m.nl 1 m.nl = bit (lr m.nl) + tot m.ns (fun s => if m.scount s = 0 then 0 else (m.members s).count m.nl) +
        upd xl m.nl (xl m.nl + 1) m.nl
      simp only [upd, if_true]
      omega
    · simp only [allocL, upd, if_neg e]
      exact this
  · intro i
    by_cases e : i = m.nl
    · subst e; simp [allocL, upd]
    · simp only [allocL, upd, if_neg e]; exact h.lalive i
  · exact h.scount
  · exact h.salive
  · intro i hi
    simp only [allocL] at hi
    simp only [allocL, upd]
    rw [if_neg (by omega)]
    exact h.lbound i (by omega)
  · exact h.sbound
  · intro i hi
    by_cases e : i = m.nl
    · subst e; simp only [allocL, upd, if_true]; exact h0
    · simp only [allocL, upd, if_neg e] at hi ⊢; exact h.laddr i hi
  · exact h.saddr
  · intro i j hi hj he
    by_cases e : i = m.nl
    · by_cases e' : j = m.nl
      · rw [e, e']
      · simp only [allocL, upd, if_pos e, if_neg e'] at hj he
        exact absurd he.symm (ha j hj)
    · by_cases e' : j = m.nl
      · simp only [allocL, upd, if_neg e, if_pos e'] at hi he
        exact absurd he (ha i hi)
      · simp only [allocL, upd, if_neg e, if_neg e'] at hi hj he
        exact h.lone i j hi hj he
  · exact h.sone
  · constructor
    · intro p sp hp
      obtain ⟨h1, h2, h3⟩ := h.lc.sound p sp hp
      refine ⟨h1, h2, ?_⟩
      simp only [allocL, upd, if_neg (hlr _ h2)]
      exact h3
    · intro i hi
      simp only [allocL, upd, if_neg (hlr _ hi)]
      exact h.lc.complete i hi
  · exact h.sc

theorem allocLs_ok (l : List Nat) : ∀ {m : Mem} {lr sr xl xs : Nat → Nat}, Inv m lr sr xl xs → l.Nodup → (∀ a ∈ l, a ≠ 0 ∧ ∀ i, m.lcount i ≠ 0 → m.laddr i ≠ a) →
    Inv (allocLs m l) lr sr (fun i => xl i + (List.range' m.nl l.length).count i) xs ∧ (allocLs m l).nl = m.nl + l.length ∧
      (∀ i, (allocLs m l).laddr i = if m.nl ≤ i ∧ i < m.nl + l.length then l.getD (i - m.nl) 0 else m.laddr i) ∧
      (allocLs m l).ns = m.ns ∧ (allocLs m l).saddr = m.saddr ∧ (allocLs m l).members = m.members ∧ (allocLs m l).scount = m.scount := by
  induction l with
  | nil =>
    intro m lr sr xl xs h _ _
    refine ⟨inv_congr h (fun _ => rfl) (fun _ => rfl) (by intro i; simp) (fun _ => rfl), rfl, ?_, rfl, rfl, rfl, rfl⟩
    intro i
    rw [if_neg (by rw [List.length_nil]; omega)]
    rfl
  | cons a l ih =>
    intro m lr sr xl xs h hn ha
    have h1 := allocL_ok h (ha a (by simp)).1 (ha a (by simp)).2
    obtain ⟨h2, h3, h4, h5, h6, h7, h8⟩ := ih h1 (List.nodup_cons.1 hn).2 (by
      intro b hb
      refine ⟨(ha b (by simp [hb])).1, ?_⟩
      intro i hi
      by_cases e : i = m.nl
      · subst e
        simp only [allocL, upd, if_true]
        rintro rfl
        exact (List.nodup_cons.1 hn).1 hb
      · simp only [allocL, upd, if_neg e] at hi ⊢
        exact (ha b (by simp [hb])).2 i hi)
    refine ⟨?_, ?_, ?_, h5, h6, h7, h8⟩
    · refine inv_congr h2 (fun _ => rfl) (fun _ => rfl) ?_ (fun _ => rfl)
      intro i
      rw [List.length_cons, List.range'_succ, count_cons_nat]
      simp only [upd, allocL]
      by_cases e : i = m.nl
      · subst e; simp; omega
      · simp [e]
    · rw [allocLs, h3]; simp [allocL]; omega
    · intro i
      have h4' : (allocLs (allocL m a) l).laddr i = if m.nl + 1 ≤ i ∧ i < m.nl + 1 + l.length then l.getD (i - (m.nl + 1)) 0 else upd m.laddr m.nl a i := h4 i
      rw [allocLs, h4', List.length_cons]
      by_cases e : i = m.nl
      · subst e
        rw [if_neg (by omega), if_pos (by omega)]
        simp [upd]
      · by_cases e' : m.nl ≤ i ∧ i < m.nl + (l.length + 1)
        · rw [if_pos (by omega), if_pos e']
          have : i - m.nl = (i - (m.nl + 1)) + 1 := by omega
          rw [this, List.getD_cons_succ]
        · rw [if_neg (by omega), if_neg e']
          simp [upd, e]

theorem allocS_ok {m : Mem} {lr sr xl xs : Nat → Nat} (h : Inv m lr sr xl xs) {a : Nat} {l : List Nat} (h0 : a ≠ 0) (ha : ∀ s, m.scount s ≠ 0 → m.saddr s ≠ a)
    (hl : ∀ i, l.count i ≤ xl i) : Inv (allocS m a l) lr sr (fun i => xl i - l.count i) (upd xs m.ns (xs m.ns + 1)) := by
  have hz := h.scount m.ns
  rw [h.sbound m.ns (Nat.le_refl _)] at hz
  have hsr : ∀ j, 0 < sr j → j ≠ m.ns := by
    rintro j hj rfl
    unfold bit at hz
    rw [if_neg (by omega)] at hz
    omega
  constructor
  · intro i
    have h1 := h.lcount i
    have h2 := hl i
    have h3 : tot m.ns (fun s => if upd m.scount m.ns 1 s = 0 then 0 else (upd m.members m.ns l s).count i) =
        tot m.ns (fun s => if m.scount s = 0 then 0 else (m.members s).count i) := by
      refine tot_congr ?_
      intro s hs
      have e : s ≠ m.ns := by omega
      have e1 : upd m.scount m.ns 1 s = m.scount s := if_neg e
      have e2 : upd m.members m.ns l s = m.members s := if_neg e
      rw [e1, e2]
    show m.lcount i = bit (lr i) + tot (m.ns + 1) (fun s => if upd m.scount m.ns 1 s = 0 then 0 else (upd m.members m.ns l s).count i) + _
    have e1 : upd m.scount m.ns 1 m.ns = 1 := if_pos rfl
    have e2 : upd m.members m.ns l m.ns = l := if_pos rfl
    rw [tot, h3, e1, e2, if_neg (by omega)]
    omega
  · exact h.lalive
  · intro s
    by_cases e : s = m.ns
    · subst e
      simp only [allocS, upd, if_true]
      omega
    · simp only [allocS, upd, if_neg e]; exact h.scount s
  · intro s
    by_cases e : s = m.ns
    · subst e; simp [allocS, upd]
    · simp only [allocS, upd, if_neg e]; exact h.salive s
  · exact h.lbound
  · intro s hs
    simp only [allocS] at hs
    simp only [allocS, upd]
    rw [if_neg (by omega)]
    exact h.sbound s (by omega)
  · exact h.laddr
  · intro s hs
    by_cases e : s = m.ns
    · subst e; simp only [allocS, upd, if_true]; exact h0
    · simp only [allocS, upd, if_neg e] at hs ⊢; exact h.saddr s hs
  · exact h.lone
  · intro i j hi hj he
    by_cases e : i = m.ns
    · by_cases e' : j = m.ns
      · rw [e, e']
      · simp only [allocS, upd, if_pos e, if_neg e'] at hj he
        exact absurd he.symm (ha j hj)
    · by_cases e' : j = m.ns
      · simp only [allocS, upd, if_neg e, if_pos e'] at hi he
        exact absurd he (ha i hi)
      · simp only [allocS, upd, if_neg e, if_neg e'] at hi hj he
        exact h.sone i j hi hj he
  · exact h.lc
  · constructor
    · intro p sp hp
      obtain ⟨h1, h2, h3⟩ := h.sc.sound p sp hp
      refine ⟨h1, h2, ?_⟩
      simp only [allocS, upd, if_neg (hsr _ h2)]
      exact h3
    · intro i hi
      simp only [allocS, upd, if_neg (hsr _ hi)]
      exact h.sc.complete i hi

theorem newSet_ok {m : Mem} {lr sr xl xs : Nat → Nat} (h : Inv m lr sr xl xs) {a : Nat} {l : List Nat} (h0 : a ≠ 0) (ha : ∀ s, m.scount s ≠ 0 → m.saddr s ≠ a)
    (hl : ∀ i, l.count i ≤ xl i) : ∃ m', newSet m a l = some m' ∧ Inv m' lr (upd sr m.ns 1) (fun i => xl i - l.count i) xs ∧
      Same (allocS m a l) m' := by
  have hz := h.scount m.ns
  rw [h.sbound m.ns (Nat.le_refl _)] at hz
  have hsr : sr m.ns = 0 := by
    unfold bit at hz
    split at hz <;> omega
  have h1 := allocS_ok h h0 ha hl
  obtain ⟨m2, e2, h2, s2, k2⟩ := storeS_ok h1 (i := m.ns) (by simp [allocS, upd])
  have hc := h2.scount m.ns
  obtain ⟨m3, e3, h3, s3⟩ := decS_ok h2 (i := m.ns) (sr' := upd sr m.ns 1) (xs' := xs) (c := m2.setC) (k2 _ (by simp [allocS, upd]))
    (by
      have : upd sr m.ns (sr m.ns + 1) = upd sr m.ns 1 := by rw [hsr]
      rw [← this]; exact h2.sc)
    (by intro j hj; simp [upd, hj]) (by simp [upd, bit] at hc ⊢; omega)
  refine ⟨m3, ?_, h3, s2.trans s3⟩
  unfold newSet
  rw [e2]
  exact e3

/-! ### The specification -/

structure Agrees (m : Mem) (o : Own) : Prop where
  inv : Inv m o.lr o.sr (fun _ => 0) (fun _ => 0)
  nl : m.nl = o.nl
  laddr : ∀ i, i < o.nl → m.laddr i = o.la i
  ns : m.ns = o.ns
  saddr : m.saddr = o.sa
  members : m.members = o.sm

theorem Agrees.scount {m : Mem} {o : Own} (h : Agrees m o) (s : Nat) : m.scount s ≠ 0 ↔ 0 < o.sr s := by
  have := h.inv.scount s
  unfold bit at this
  split at this <;> omega

theorem Agrees.lcount {m : Mem} {o : Own} (h : Agrees m o) (i : Nat) : m.lcount i ≠ 0 ↔ o.Needed i := by
  have := h.inv.lcount i
  simp only [Nat.add_zero] at this
  rw [this]
  unfold Own.Needed
  constructor
  · intro hne
    by_cases h1 : o.lr i = 0
    · right
      have h2 : tot m.ns (fun s => if m.scount s = 0 then 0 else (m.members s).count i) ≠ 0 := by
        unfold bit at hne
        rw [if_pos h1] at hne
        omega
      obtain ⟨s, _, h3⟩ := tot_ne.1 h2
      split at h3
      · exact absurd rfl h3
      · rename_i h4
        refine ⟨s, (h.scount s).1 h4, ?_⟩
        rw [← h.members]
        exact List.count_pos_iff.1 (by omega)
    · left; omega
  · rintro (h1 | ⟨s, h1, h2⟩)
    · unfold bit
      rw [if_neg (by omega)]
      omega
    · have hs := (h.scount s).2 h1
      have : tot m.ns (fun s => if m.scount s = 0 then 0 else (m.members s).count i) ≠ 0 := by
        refine tot_ne.2 ⟨s, ?_, ?_⟩
        · by_cases h3 : s < m.ns
          · exact h3
          · exact absurd (h.inv.sbound s (by omega)) hs
        · simp only [if_neg hs]
          rw [h.members]
          have := List.count_pos_iff.2 h2
          omega
      omega

theorem Agrees.leaf_lt {m : Mem} {o : Own} (h : Agrees m o) {i : Nat} (hi : o.Needed i) : i < o.nl := by
  by_cases h1 : i < o.nl
  · exact h1
  · exact absurd (h.inv.lbound i (by rw [h.nl]; omega)) ((h.lcount i).2 hi)

theorem Agrees.set_lt {m : Mem} {o : Own} (h : Agrees m o) {s : Nat} (hs : 0 < o.sr s) : s < o.ns := by
  by_cases h1 : s < o.ns
  · exact h1
  · exact absurd (h.inv.sbound s (by rw [h.ns]; omega)) ((h.scount s).2 hs)

theorem Agrees.leaf {m : Mem} {o : Own} (h : Agrees m o) {p i : Nat} (hi : o.Leaf p i) : m.leafC.cache.find? p = some ⟨p, i⟩ ∧ m.laddr i = p := by
  have := h.laddr i hi.1
  rw [hi.2.2] at this
  have h1 := (h.inv.lc.complete i hi.2.1).1
  rw [this] at h1
  exact ⟨h1, this⟩

theorem Agrees.set {m : Mem} {o : Own} (h : Agrees m o) {p i : Nat} (hi : o.Set p i) : m.setC.cache.find? p = some ⟨p, i⟩ ∧ m.saddr i = p := by
  have : m.saddr i = p := by rw [h.saddr]; exact hi.2.2
  have h1 := (h.inv.sc.complete i hi.2.1).1
  rw [this] at h1
  exact ⟨h1, this⟩

theorem Agrees.find_leaf {m : Mem} {o : Own} (h : Agrees m o) {p : Nat} {sp : Sptr} (hp : m.leafC.cache.find? p = some sp) : o.Leaf p sp.tag := by
  obtain ⟨_, h2, h3⟩ := h.inv.lc.sound p sp hp
  have hlt := h.leaf_lt (.inl h2)
  exact ⟨hlt, h2, by rw [← h.laddr _ hlt]; exact h3⟩

theorem Agrees.find_set {m : Mem} {o : Own} (h : Agrees m o) {p : Nat} {sp : Sptr} (hp : m.setC.cache.find? p = some sp) : o.Set p sp.tag := by
  obtain ⟨_, h2, h3⟩ := h.inv.sc.sound p sp hp
  exact ⟨h.set_lt h2, h2, by rw [← h.saddr]; exact h3⟩

theorem Agrees.no_leaf {m : Mem} {o : Own} (h : Agrees m o) {p : Nat} (hp : ∀ i, ¬ o.Leaf p i) : m.leafC.cache.find? p = none := by
  cases hx : m.leafC.cache.find? p with
  | none => rfl
  | some sp => exact absurd (h.find_leaf hx) (hp _)

theorem Agrees.no_set {m : Mem} {o : Own} (h : Agrees m o) {p : Nat} (hp : ∀ i, ¬ o.Set p i) : m.setC.cache.find? p = none := by
  cases hx : m.setC.cache.find? p with
  | none => rfl
  | some sp => exact absurd (h.find_set hx) (hp _)

theorem lookup_dead {m : Mem} {o : Own} (h : Agrees m o) {hs : List Nat} (hd : ∃ p ∈ hs, ∀ i, ¬ o.Leaf p i) : lookup m.leafC hs = none := by
  induction hs with
  | nil => obtain ⟨p, hp, _⟩ := hd; cases hp
  | cons a hs ih =>
    obtain ⟨p, hp, hn⟩ := hd
    unfold lookup
    cases hp with
    | head => rw [h.no_leaf hn]
    | tail _ hp =>
      cases m.leafC.cache.find? a with
      | none => rfl
      | some sp => simp [ih ⟨p, hp, hn⟩]

theorem lookup_some {m : Mem} {o : Own} (h : Agrees m o) {hs : List Nat} : ∀ {l : List Nat}, l.length = hs.length →
    (∀ (k p i : Nat), hs[k]? = some p → l[k]? = some i → o.Leaf p i) → lookup m.leafC hs = some l := by
  induction hs with
  | nil => intro l hl _; rw [List.length_eq_zero_iff.1 hl]; rfl
  | cons a hs ih =>
    intro l hl hk
    cases l with
    | nil => cases hl
    | cons i l =>
      have h1 := hk 0 a i rfl rfl
      have h2 := ih (l := l) (by simpa using hl) (fun k p i h3 h4 => hk (k + 1) p i h3 h4)
      simp [lookup, (h.leaf h1).1, h2]

theorem lookup_all {m : Mem} {o : Own} (h : Agrees m o) {hs : List Nat} (hd : ∀ p ∈ hs, ∃ i, o.Leaf p i) : ∃ l, lookup m.leafC hs = some l := by
  induction hs with
  | nil => exact ⟨[], rfl⟩
  | cons a hs ih =>
    obtain ⟨i, hi⟩ := hd a (by simp)
    obtain ⟨l, hl⟩ := ih (fun p hp => hd p (by simp [hp]))
    exact ⟨i :: l, by simp [lookup, (h.leaf hi).1, hl]⟩

theorem agrees_init : Agrees .init .init := by
  refine ⟨?_, rfl, fun _ _ => rfl, rfl, rfl, rfl⟩
  constructor <;> simp [Mem.init, Own.init, bit, tot]
  all_goals (constructor <;> simp [empty, OMap.find?])

theorem step_agrees {m : Mem} {o o' : Own} {a : Op} (h : Agrees m o) (hs : Step o a o') : ∃ m', exec m a = some m' ∧ Agrees m' o' := by
  have freeL : ∀ {l : List Nat}, o.FreeL l → l.Nodup ∧ ∀ a ∈ l, a ≠ 0 ∧ ∀ i, m.lcount i ≠ 0 → m.laddr i ≠ a := by
    intro l hf
    refine ⟨hf.1, fun a ha => ⟨(hf.2 a ha).1, fun i hi => ?_⟩⟩
    have hn := (h.lcount i).1 hi
    rw [h.laddr i (h.leaf_lt hn)]
    exact (hf.2 a ha).2 i (h.leaf_lt hn) hn
  have freeS : ∀ {a : Nat}, o.FreeS a → a ≠ 0 ∧ ∀ s, m.scount s ≠ 0 → m.saddr s ≠ a := by
    intro a hf
    refine ⟨hf.1, fun s hi => ?_⟩
    have hn := (h.scount s).1 hi
    rw [h.saddr]
    exact hf.2 s (h.set_lt hn) hn
  cases hs with
  | newLeaf hf =>
    rename_i a
    obtain ⟨hn, hf⟩ := freeL hf
    have h1 := allocL_ok h.inv (hf a (by simp)).1 (hf a (by simp)).2
    obtain ⟨m2, e2, h2, s2, _⟩ := storeL_ok h1 (i := m.nl) (by simp [allocL, upd])
    obtain ⟨m3, e3, h3, s3, _⟩ := decL_ok h2 (i := m.nl) (by simp [upd])
    refine ⟨m3, ?_, ?_, ?_, ?_, ?_, ?_, ?_⟩
    · show newLeaf m a = _
      unfold newLeaf
      rw [e2]; exact e3
    · refine inv_congr h3 ?_ (fun _ => rfl) ?_ (fun _ => rfl)
      · intro i
        rw [h.nl]
        simp only [upd, Own.handOut, Own.addLeaves]
        by_cases e : i = o.nl
        · subst e; simp
        · rw [if_neg e, count_cons_nat, if_neg e]; simp
      · intro i
        simp only [upd]
        split <;> simp
    · rw [s3.nl, s2.nl]; simp [allocL, Own.handOut, Own.addLeaves, h.nl]
    · intro i hi
      rw [s3.laddr, s2.laddr]
      simp only [Own.handOut, Own.addLeaves, List.length_cons, List.length_nil] at hi
      simp only [allocL, upd, Own.handOut, Own.addLeaves, h.nl]
      by_cases e : i = o.nl
      · subst e; simp
      · rw [if_neg e, if_neg (by omega)]; exact h.laddr i (by omega)
    · rw [s3.ns, s2.ns]; exact h.ns
    · rw [s3.saddr, s2.saddr]; exact h.saddr
    · rw [s3.members, s2.members]; exact h.members
  | @dropLeaf p i hp =>
    obtain ⟨m', e, h1, s1⟩ := dropL_ok h.inv hp.2.1
    rw [(h.leaf hp).2] at e
    exact ⟨m', e, h1, s1.nl.trans h.nl, fun j hj => by rw [s1.laddr]; exact h.laddr j hj, s1.ns.trans h.ns, s1.saddr.trans h.saddr, s1.members.trans h.members⟩
  | @dropNoLeaf p hp =>
    refine ⟨m, ?_, h⟩
    show dropL m p = _
    rw [dropL, h.no_leaf hp]
  | @useLeaf p =>
    refine ⟨m, ?_, h⟩
    cases hx : m.leafC.cache.find? p with
    | none => simp only [exec, hx]
    | some sp =>
      have := (h.inv.lalive _).2 ((h.lcount _).2 (.inl (h.find_leaf hx).2.1))
      simp only [exec, hx, this, if_true]
  | @newSet a hs kept l hf hh hk hl hp =>
    obtain ⟨h0, hf⟩ := freeS hf
    obtain ⟨l', hl'⟩ := lookup_all h hh
    have hl2 := lookup_some h hl hp
    obtain ⟨m1, e1, h1, s1, c1, _⟩ := eachInc_ok l h.inv (by
      intro i hi
      obtain ⟨k, hk', hk2⟩ := List.getElem_of_mem hi
      have hk3 : k < kept.length := by omega
      exact (h.lcount i).2 (.inl (hp k kept[k] i (List.getElem?_eq_getElem hk3) (by rw [List.getElem?_eq_getElem hk', hk2])).2.1))
    obtain ⟨m2, e2, h2, s2⟩ := newSet_ok h1 (a := a) (l := l) h0 (by rw [c1, s1.saddr]; exact hf) (by intro i; simp)
    refine ⟨m2, ?_, ?_, ?_, ?_, ?_, ?_, ?_⟩
    · simp only [exec, hl', hl2, e1, Option.bind_some]
      exact e2
    · refine inv_congr h2 (fun _ => rfl) ?_ (by intro i; simp) (fun _ => rfl)
      intro s; rw [s1.ns, h.ns]; rfl
    · rw [s2.nl]; exact s1.nl.trans h.nl
    · intro i hi
      rw [s2.laddr]
      show m1.laddr i = o.la i
      rw [s1.laddr]; exact h.laddr i hi
    · rw [s2.ns]; show m1.ns + 1 = o.ns + 1; rw [s1.ns, h.ns]
    · rw [s2.saddr]; show upd m1.saddr m1.ns a = upd o.sa o.ns a; rw [s1.saddr, s1.ns, h.saddr, h.ns]
    · rw [s2.members]; show upd m1.members m1.ns l = upd o.sm o.ns l; rw [s1.members, s1.ns, h.members, h.ns]
  | newSetDead hd =>
    refine ⟨m, ?_, h⟩
    simp only [exec, lookup_dead h hd]
  | @grow a news hf hn =>
    obtain ⟨h0, hf⟩ := freeS hf
    obtain ⟨hnd, hn⟩ := freeL hn
    obtain ⟨h1, n1, l1, c1, a1, b1, d1⟩ := allocLs_ok news h.inv hnd hn
    obtain ⟨m2, e2, h2, s2⟩ := newSet_ok h1 (a := a) (l := List.range' m.nl news.length) h0 (by rw [d1, a1]; exact hf) (by intro i; simp)
    refine ⟨m2, e2, ?_, ?_, ?_, ?_, ?_, ?_⟩
    · refine inv_congr h2 (fun _ => rfl) ?_ (by intro i; simp) (fun _ => rfl)
      intro s; rw [c1, h.ns]; rfl
    · rw [s2.nl]; show (allocLs m news).nl = o.nl + news.length; rw [n1, h.nl]
    · intro i hi
      have hi' : i < o.nl + news.length := hi
      rw [s2.laddr]
      show (allocLs m news).laddr i = if o.nl ≤ i then news.getD (i - o.nl) 0 else o.la i
      rw [l1, h.nl]
      by_cases e : o.nl ≤ i
      · rw [if_pos ⟨e, hi'⟩, if_pos e]
      · rw [if_neg (fun hh => e hh.1), if_neg e]; exact h.laddr i (by omega)
    · rw [s2.ns]; show (allocLs m news).ns + 1 = o.ns + 1; rw [c1, h.ns]
    · rw [s2.saddr]; show upd (allocLs m news).saddr (allocLs m news).ns a = upd o.sa o.ns a; rw [a1, c1, h.saddr, h.ns]
    · rw [s2.members]; show upd (allocLs m news).members (allocLs m news).ns _ = upd o.sm o.ns _; rw [b1, c1, h.members, h.ns, h.nl]
  | @growFrom a p s news hf hn hp =>
    obtain ⟨h0, hf⟩ := freeS hf
    obtain ⟨hnd, hn⟩ := freeL hn
    obtain ⟨m1, e1, h1, s1, c1, k1⟩ := eachInc_ok (m.members s) h.inv (by
      intro i hi
      rw [h.members] at hi
      exact (h.lcount i).2 (.inr ⟨s, hp.2.1, hi⟩))
    have hneeded : ∀ i, m1.lcount i ≠ 0 → m.lcount i ≠ 0 := by
      intro i hi
      by_cases e : i ∈ m.members s
      · rw [h.members] at e
        exact (h.lcount i).2 (.inr ⟨s, hp.2.1, e⟩)
      · have e1 := h1.lcount i
        have e2 := h.inv.lcount i
        rw [c1, s1.ns, s1.members, List.count_eq_zero_of_not_mem e] at e1
        omega
    obtain ⟨h2, n2, l2, c2, a2, b2, d2⟩ := allocLs_ok news h1 hnd (fun b hb => ⟨(hn b hb).1, fun i hi => by rw [s1.laddr]; exact (hn b hb).2 i (hneeded i hi)⟩)
    obtain ⟨m3, e3, h3, s3⟩ := newSet_ok h2 (a := a) (l := m.members s ++ List.range' m.nl news.length) h0 (by rw [d2, a2, c1, s1.saddr]; exact hf)
      (by intro i; rw [s1.nl, List.count_append]; simp)
    refine ⟨m3, ?_, ?_, ?_, ?_, ?_, ?_, ?_⟩
    · have hal := (h.inv.salive s).2 ((h.scount s).2 hp.2.1)
      simp only [exec, (h.set hp).1, hal, if_true, e1, Option.bind_some]
      exact e3
    · refine inv_congr h3 (fun _ => rfl) ?_ (by intro i; rw [s1.nl, List.count_append]; simp) (fun _ => rfl)
      intro s; rw [c2, s1.ns, h.ns]; rfl
    · rw [s3.nl]; show (allocLs m1 news).nl = o.nl + news.length; rw [n2, s1.nl, h.nl]
    · intro i hi
      have hi' : i < o.nl + news.length := hi
      rw [s3.laddr]
      show (allocLs m1 news).laddr i = if o.nl ≤ i then news.getD (i - o.nl) 0 else o.la i
      rw [l2, s1.nl, h.nl]
      by_cases e : o.nl ≤ i
      · rw [if_pos ⟨e, hi'⟩, if_pos e]
      · rw [if_neg (fun hh => e hh.1), if_neg e, s1.laddr]; exact h.laddr i (by omega)
    · rw [s3.ns]; show (allocLs m1 news).ns + 1 = o.ns + 1; rw [c2, s1.ns, h.ns]
    · rw [s3.saddr]; show upd (allocLs m1 news).saddr (allocLs m1 news).ns a = upd o.sa o.ns a; rw [a2, c2, s1.saddr, s1.ns, h.saddr, h.ns]
    · rw [s3.members]; show upd (allocLs m1 news).members (allocLs m1 news).ns _ = upd o.sm o.ns _; rw [b2, c2, s1.members, s1.ns, h.members, h.ns, h.nl]
  | growDead hp =>
    refine ⟨m, ?_, h⟩
    simp only [exec, h.no_set hp]
  | @same p s hp =>
    obtain ⟨m', e, h1, s1, _⟩ := storeS_ok h.inv ((h.scount s).2 hp.2.1)
    refine ⟨m', ?_, h1, s1.nl.trans h.nl, fun j hj => by rw [s1.laddr]; exact h.laddr j hj, s1.ns.trans h.ns, s1.saddr.trans h.saddr, s1.members.trans h.members⟩
    simp only [exec, (h.set hp).1]; exact e
  | sameDead hp =>
    refine ⟨m, ?_, h⟩
    simp only [exec, h.no_set hp]
  | @leavesOf p s hp =>
    obtain ⟨m', e, h1, s1⟩ := eachStore_ok (m.members s) h.inv (by
      intro i hi
      rw [h.members] at hi
      exact (h.lcount i).2 (.inr ⟨s, hp.2.1, hi⟩))
    refine ⟨m', ?_, ?_, s1.nl.trans h.nl, fun j hj => by rw [s1.laddr]; exact h.laddr j hj, s1.ns.trans h.ns, s1.saddr.trans h.saddr, s1.members.trans h.members⟩
    · have hal := (h.inv.salive s).2 ((h.scount s).2 hp.2.1)
      simp only [exec, (h.set hp).1, hal, if_true]; exact e
    · rw [h.members] at h1; exact h1
  | leavesOfDead hp =>
    refine ⟨m, ?_, h⟩
    simp only [exec, h.no_set hp]
  | @dropSet p s hp =>
    obtain ⟨m', e, h1, s1⟩ := dropS_ok h.inv hp.2.1
    rw [(h.set hp).2] at e
    exact ⟨m', e, h1, s1.nl.trans h.nl, fun j hj => by rw [s1.laddr]; exact h.laddr j hj, s1.ns.trans h.ns, s1.saddr.trans h.saddr, s1.members.trans h.members⟩
  | @dropNoSet p hp =>
    refine ⟨m, ?_, h⟩
    show dropS m p = _
    rw [dropS, h.no_set hp]
  | @useSet p =>
    refine ⟨m, ?_, h⟩
    cases hx : m.setC.cache.find? p with
    | none => simp only [exec, hx]
    | some sp =>
      have := (h.inv.salive _).2 ((h.scount _).2 (h.find_set hx).2.1)
      simp only [exec, hx, this, if_true]

theorem steps_agrees {o : Own} {l : List Op} {o' : Own} (hst : Steps o l o') : ∀ {m : Mem}, Agrees m o → ∃ m', run m l = some m' ∧ Agrees m' o' := by
  induction hst with
  | nil => intro m h; exact ⟨m, rfl, h⟩
  | cons h1 _ ih =>
    intro m h
    obtain ⟨m1, e1, h2⟩ := step_agrees h h1
    obtain ⟨m2, e2, h3⟩ := ih h2
    exact ⟨m2, by rw [run, e1]; exact e2, h3⟩

/-- C248: in every history of calls - handles of any age, the allocator reusing addresses of destroyed objects - nothing undefined happens, a track or
    camera exists exactly while the program holds a handle to it or to a set or map that has it, a set exactly while the program holds a handle to it,
    and a handle leads to the object it was given for. -/
theorem C248_lifetimes {l : List Op} {o : Own} (h : Steps .init l o) : ∃ m, run .init l = some m ∧ (∀ i, m.lalive i = true ↔ o.Needed i) ∧
    (∀ s, m.salive s = true ↔ 0 < o.sr s) ∧ (∀ p i, get m.leafC p = .ok ⟨p, i⟩ ↔ o.Leaf p i) ∧ (∀ p s, get m.setC p = .ok ⟨p, s⟩ ↔ o.Set p s) := by
  obtain ⟨m, e, hag⟩ := steps_agrees h agrees_init
  refine ⟨m, e, ?_, ?_, ?_, ?_⟩
  · intro i; rw [hag.inv.lalive, hag.lcount]
  · intro s; rw [hag.inv.salive, hag.scount]
  · intro p i
    constructor
    · intro hg
      have : m.leafC.cache.find? p = some ⟨p, i⟩ := by
        unfold get at hg
        split at hg
        · cases hg
        · split at hg
          · cases hg; assumption
          · cases hg
      exact hag.find_leaf this
    · intro hp
      have h0 : p ≠ 0 := by
        rw [← (hag.leaf hp).2]
        exact hag.inv.laddr i ((hag.lcount i).2 (.inl hp.2.1))
      unfold get
      rw [if_neg h0, (hag.leaf hp).1]
  · intro p s
    constructor
    · intro hg
      have : m.setC.cache.find? p = some ⟨p, s⟩ := by
        unfold get at hg
        split at hg
        · cases hg
        · split at hg
          · cases hg; assumption
          · cases hg
      exact hag.find_set this
    · intro hp
      have h0 : p ≠ 0 := by
        rw [← (hag.set hp).2]
        exact hag.inv.saddr s ((hag.scount s).2 hp.2.1)
      unfold get
      rw [if_neg h0, (hag.set hp).1]

/-- A handle never names two objects. -/
theorem C248_handle_unique {l : List Op} {o : Own} (h : Steps .init l o) {p i j : Nat} : (o.Leaf p i → o.Leaf p j → i = j) ∧ (o.Set p i → o.Set p j → i = j) := by
  obtain ⟨m, e, hag⟩ := steps_agrees h agrees_init
  constructor
  · intro h1 h2
    have := (hag.leaf h1).1.symm.trans (hag.leaf h2).1
    have := Option.some.inj this
    simp only [Sptr.mk.injEq] at this
    exact this.2
  · intro h1 h2
    have := (hag.set h1).1.symm.trans (hag.set h2).1
    have := Option.some.inj this
    simp only [Sptr.mk.injEq] at this
    exact this.2

/-- Nothing leaks: when every handle is destroyed, no object exists. -/
theorem C248_no_leak {l : List Op} {o : Own} (h : Steps .init l o) (hl : ∀ i, o.lr i = 0) (hs : ∀ s, o.sr s = 0) :
    ∃ m, run .init l = some m ∧ (∀ i, m.lalive i = false) ∧ ∀ s, m.salive s = false := by
  obtain ⟨m, e, h1, h2, _⟩ := C248_lifetimes h
  refine ⟨m, e, ?_, ?_⟩
  · intro i
    have : ¬ m.lalive i = true := by
      rw [h1]
      rintro (h | ⟨s, h, _⟩)
      · rw [hl i] at h; omega
      · rw [hs s] at h; omega
    simpa using this
  · intro s
    have : ¬ m.salive s = true := by rw [h2, hs s]; omega
    simpa using this

/-- A program: two tracks, a set of both, the first track handle destroyed, an algorithm extends the set by a track at the address 30, get_map of the
    result, everything destroyed; the address of the first track is used again. -/
def demo : List Op := [.newLeaf 10, .newLeaf 20, .newSet 5 [10, 20] [10, 20], .dropLeaf 10, .useLeaf 20, .grow 6 (some 5) [30], .dropSet 5, .leavesOf 6,
  .dropSet 6, .dropLeaf 10, .newLeaf 10, .dropLeaf 20, .dropLeaf 20, .dropLeaf 30, .useLeaf 10]

example : (run .init demo).map (fun m => ((List.range 4).map m.lalive, (List.range 2).map m.salive, (List.range 4).map m.laddr)) =
    some ([false, false, false, true], [false, false], [10, 20, 30, 10]) := by decide +kernel

/-- A history as the specification has it: the set keeps the track after the handle to it is gone. -/
theorem demo_steps : ∃ o, Steps .init [.newLeaf 10, .newSet 5 [10] [10], .dropLeaf 10, .useSet 5] o ∧ o.Needed 0 ∧ o.lr 0 = 0 ∧ o.Set 5 0 := by
  refine ⟨_, .cons (.newLeaf ⟨by simp, ?_⟩) (.cons (.newSet (l := [0]) ⟨by decide, ?_⟩ ?_ (fun _ h => h) rfl ?_) (.cons (.dropLeaf (i := 0) ?_) (.cons .useSet .nil))), ?_⟩
  · intro a ha
    simp only [List.mem_singleton] at ha
    subst ha
    exact ⟨by decide, fun i hi => absurd hi (Nat.not_lt_zero i)⟩
  · intro s hs
    exact absurd hs (Nat.not_lt_zero s)
  · intro p hp
    simp only [List.mem_singleton] at hp
    subst hp
    exact ⟨0, by decide, by decide, by decide⟩
  · intro k p i h1 h2
    cases k with
    | succ k => simp at h1
    | zero =>
      simp at h1 h2
      subst h1 h2
      exact ⟨by decide, by decide, by decide⟩
  · exact ⟨by decide, by decide, by decide⟩
  · exact ⟨.inr ⟨0, by decide, by decide⟩, by decide, by decide, by decide, by decide⟩

end Vital.CApi.Life
