import Verif.Proc.ExecLeak
import Mathlib.Tactic.Tauto
/-
  Proofs about kwsysProcess_Execute: how the processes of a pipeline are connected (C204).
-/
namespace Vital.Proc.Exec

/-! ### What the descriptors refer to -/

/-- The object is older than number `n`. -/
def Obj.before (n : Nat) : Obj → Prop
  | .old _ => True
  | .file id _ _ => id < n
  | .pipeR id => id < n
  | .pipeW id => id < n

theorem Obj.before.mono {n m : Nat} {o : Obj} (h : o.before n) (hm : n ≤ m) : o.before m := by
  cases o <;> simp only [Obj.before] at * <;> omega

/-- The entries of a list: a descriptor, what it refers to, and whether it is known to be closed by `exec`.  All other descriptors above 2 are as in
    `t0`, or handed over by the caller (`N`) and closed. -/
structure JT (t0 : Tab) (N : List Nat) (n : Nat) (L : List (Int × Obj × Bool)) (t : Tab) : Prop where
  fresh : ∀ (fd : Nat) (x : Fd), t fd = some x → x.obj.before n
  held : ∀ p ∈ L, 0 ≤ p.1 ∧ (∃ x, t p.1.toNat = some x ∧ x.obj = p.2.1 ∧ (p.2.2 = true → x.cloexec = true)) ∧ (2 < p.1 → t0 p.1.toNat = none ∨ p.1.toNat ∈ N)
  cl : ∀ fd : Nat, 2 < fd → (∃ o b, ((fd : Int), o, b) ∈ L) ∨ (fd ∉ N ∧ t fd = t0 fd) ∨ (fd ∈ N ∧ t fd = none)

variable {t0 : Tab} {N : List Nat} {n : Nat} {L L' : List (Int × Obj × Bool)} {t : Tab}

theorem JT.sub (h : JT t0 N n L t) (h1 : ∀ p ∈ L', ∃ b, (p.1, p.2.1, b) ∈ L ∧ (p.2.2 = true → b = true)) (h2 : ∀ p ∈ L, p.1 ≤ 2 ∨ ∃ o b, (p.1, o, b) ∈ L') : JT t0 N n L' t := by
  refine ⟨h.fresh, fun p hp => ?_, fun fd hfd => ?_⟩
  · obtain ⟨b, hb, hb'⟩ := h1 p hp
    obtain ⟨a1, ⟨x, a2, a3, a4⟩, a5⟩ := h.held _ hb
    exact ⟨a1, ⟨x, a2, a3, fun hh => a4 (hb' hh)⟩, a5⟩
  · rcases h.cl fd hfd with ⟨o, b, hm⟩ | h | h
    · rcases h2 _ hm with hh | hh
      · simp only at hh; omega
      · exact Or.inl hh
    · exact Or.inr (Or.inl h)
    · exact Or.inr (Or.inr h)

theorem JT.alloc (h : JT t0 N n L t) {a : Nat} (ha : t a = none) {o : Obj} (ho : o.before n) (b : Bool) : JT t0 N n ((a, o, b) :: L) (setTab t a (some ⟨o, b, false⟩)) := by
  refine ⟨fun fd x hx => ?_, fun p hp => ?_, fun fd hfd => ?_⟩
  · simp only [setTab] at hx
    split at hx
    · simp only [Option.some.injEq] at hx; subst hx; exact ho
    · exact h.fresh fd x hx
  · rcases List.mem_cons.mp hp with rfl | hp
    · refine ⟨by simp, ⟨⟨o, b, false⟩, by simp [setTab], rfl, fun h => h⟩, fun h3 => ?_⟩
      simp only [Int.toNat_natCast] at h3 ⊢
      rcases h.cl a (by omega) with ⟨o', b', hm⟩ | ⟨h1, h2⟩ | ⟨h1, _⟩
      · obtain ⟨_, ⟨x, hx, _⟩, _⟩ := h.held _ hm
        simp [ha] at hx
      · left; rw [← h2]; exact ha
      · exact Or.inr h1
    · obtain ⟨a1, ⟨x, a2, a3, a4⟩, a5⟩ := h.held _ hp
      refine ⟨a1, ⟨x, ?_, a3, a4⟩, a5⟩
      have : p.1.toNat ≠ a := by intro e; rw [e, ha] at a2; cases a2
      simp [setTab, this, a2]
  · by_cases e : fd = a
    · subst e; exact Or.inl ⟨o, b, by simp⟩
    · simp only [setTab, if_neg e]
      rcases h.cl fd hfd with ⟨o', b', hm⟩ | h | h
      · exact Or.inl ⟨o', b', List.mem_cons_of_mem _ hm⟩
      · exact Or.inr (Or.inl h)
      · exact Or.inr (Or.inr h)

theorem JT.mono (h : JT t0 N n L t) {m : Nat} (hm : n ≤ m) : JT t0 N m L t := ⟨fun fd x hx => (h.fresh fd x hx).mono hm, h.held, h.cl⟩

theorem JT.flag (h : JT t0 N n L t) {v : Int} {x : Fd} (hx : t v.toNat = some x) {f : Fd → Fd} (f1 : ∀ x, (f x).obj = x.obj) (f2 : ∀ x, x.cloexec = true → (f x).cloexec = true)
    (h0 : ∃ o b, (v, o, b) ∈ L)
    (h1 : ∀ p ∈ L', ∃ b, (p.1, p.2.1, b) ∈ L ∧ (p.2.2 = true → b = true ∨ (p.1 = v ∧ ∀ x, (f x).cloexec = true))) (h2 : ∀ p ∈ L, p.1 ≤ 2 ∨ ∃ o b, (p.1, o, b) ∈ L') :
    JT t0 N n L' (setTab t v.toNat (some (f x))) := by
  obtain ⟨o0, b0, h0⟩ := h0
  have hv0 := (h.held _ h0).1
  simp only at hv0
  refine ⟨fun fd y hy => ?_, fun p hp => ?_, fun fd hfd => ?_⟩
  · simp only [setTab] at hy
    split at hy
    · simp only [Option.some.injEq] at hy; subst hy; rw [f1]; exact h.fresh _ x hx
    · exact h.fresh fd y hy
  · obtain ⟨b, hb, hb'⟩ := h1 p hp
    obtain ⟨a1, ⟨y, a2, a3, a4⟩, a5⟩ := h.held _ hb
    refine ⟨a1, ?_, a5⟩
    by_cases e : p.1.toNat = v.toNat
    · have hxy : x = y := by
        have a2 : t p.1.toNat = some y := a2
        rw [e, hx] at a2; exact Option.some.inj a2
      refine ⟨f x, by simp [setTab, e], by rw [f1, hxy]; exact a3, fun hh => ?_⟩
      rcases hb' hh with hb | ⟨_, hb⟩
      · exact f2 x (by rw [hxy]; exact a4 hb)
      · exact hb x
    · refine ⟨y, by simp [setTab, e]; exact a2, a3, fun hh => ?_⟩
      rcases hb' hh with hb | ⟨hb, _⟩
      · exact a4 hb
      · exact absurd (by rw [hb]) e
  · by_cases e : fd = v.toNat
    · left
      have : ((fd : Nat) : Int) = v := by omega
      rw [this]
      rcases h2 _ h0 with hh | hh
      · simp only at hh; omega
      · exact hh
    · simp only [setTab, if_neg e]
      rcases h.cl fd hfd with ⟨o', b', hm⟩ | h | h
      · rcases h2 _ hm with hh | hh
        · simp only at hh; omega
        · exact Or.inl hh
      · exact Or.inr (Or.inl h)
      · exact Or.inr (Or.inr h)

theorem JT.close (h : JT t0 N n L t) {v : Int} {o : Obj} {b : Bool} (h0 : (v, o, b) ∈ L) (hv : 2 < v) (h1 : ∀ p ∈ L', p ∈ L ∧ p.2.1 ≠ o)
    (h2 : ∀ p ∈ L, p.1 = v ∨ p.1 ≤ 2 ∨ ∃ o b, (p.1, o, b) ∈ L') : JT t0 N n L' (setTab t v.toNat none) := by
  obtain ⟨_, ⟨x0, x1, x2, _⟩, x4⟩ := h.held _ h0
  simp only at x1 x2 x4
  refine ⟨fun fd y hy => ?_, fun p hp => ?_, fun fd hfd => ?_⟩
  · simp only [setTab] at hy
    split at hy
    · cases hy
    · exact h.fresh fd y hy
  · obtain ⟨hm, hne⟩ := h1 p hp
    obtain ⟨a1, ⟨y, a2, a3, a4⟩, a5⟩ := h.held _ hm
    refine ⟨a1, ⟨y, ?_, a3, a4⟩, a5⟩
    have : p.1.toNat ≠ v.toNat := by
      intro e
      rw [e, x1] at a2
      simp only [Option.some.injEq] at a2
      subst a2
      exact hne (a3.symm.trans x2)
    simp [setTab, this, a2]
  · by_cases e : fd = v.toNat
    · subst e
      right
      by_cases hN : v.toNat ∈ N
      · exact Or.inr ⟨hN, by simp [setTab]⟩
      · refine Or.inl ⟨hN, ?_⟩
        rcases x4 hv with h | h
        · simp [setTab, h]
        · exact absurd h hN
    · simp only [setTab, if_neg e]
      rcases h.cl fd hfd with ⟨o', b', hm⟩ | h | h
      · rcases h2 _ hm with hh | hh | hh
        · simp only at hh; omega
        · simp only at hh; omega
        · exact Or.inl hh
      · exact Or.inr (Or.inl h)
      · exact Or.inr (Or.inr h)

/-- Two descriptors with different objects are different. -/
theorem JT.ne (h : JT t0 N n L t) {v w : Int} {o o' : Obj} {b b' : Bool} (h1 : (v, o, b) ∈ L) (h2 : (w, o', b') ∈ L) (hne : o ≠ o') : v.toNat ≠ w.toNat := by
  intro e
  obtain ⟨_, ⟨x, x1, x2, _⟩, _⟩ := h.held _ h1
  obtain ⟨_, ⟨y, y1, y2, _⟩, _⟩ := h.held _ h2
  simp only at x1 x2 y1 y2
  rw [e, y1] at x1
  simp only [Option.some.injEq] at x1
  subst x1
  exact hne (x2.symm.trans y2)

theorem JT.before (h : JT t0 N n L t) {p : Int × Obj × Bool} (hp : p ∈ L) : p.2.1.before n := by
  obtain ⟨_, ⟨x, x1, x2, _⟩, _⟩ := h.held _ hp
  rw [← x2]; exact h.fresh _ x x1

/-! ### Successful steps -/

theorem seq_true {f g : Act} {s s' : S} : (f &> g) s = (true, s') ↔ ∃ m, f s = (true, m) ∧ g m = (true, s') := by
  simp only [Act.seq]
  constructor
  · intro h
    split at h
    · next m hm => exact ⟨m, hm, h⟩
    · simp at h
  · rintro ⟨m, h1, h2⟩
    simp [h1, h2]

theorem orElse_true {f g : Act} {s s' : S} : orElse f g s = (true, s') ↔ f s = (true, s') := by
  simp only [orElse]
  constructor
  · intro h
    split at h
    · next m hm => rw [hm]; exact h
    · simp at h
  · intro h; simp [h]

theorem upd_true {u : S → S} {s s' : S} : upd u s = (true, s') ↔ s' = u s := by
  simp only [upd, Prod.mk.injEq, true_and]; exact eq_comm

/-- The state of the kernel, as far as the connections go. -/
structure KT (t0 : Tab) (N : List Nat) (L : List (Int × Obj × Bool)) (ch : List Child) (np : Nat) (k : K) : Prop where
  jt : JT t0 N k.nextId L k.tab
  ch : k.children = ch
  np : k.nextPid = np

variable {ch : List Child} {np : Nat}

theorem KT.pop {k : K} (h : KT t0 N L ch np k) : KT t0 N L ch np (pop k).2 := by
  simp only [Exec.pop]; split <;> exact ⟨h.jt, h.ch, h.np⟩

theorem call_true {s s' : S} (h : KT t0 N L ch np s.k) (hc : call s = (true, s')) : ∃ k, s' = { s with k := k } ∧ KT t0 N L ch np k := by
  simp only [call, Prod.mk.injEq] at hc
  exact ⟨(Exec.pop s.k).2, hc.2.symm, h.pop⟩

theorem exec_true {s s' : S} (h : KT t0 N L ch np s.k) (hc : execResult s = (true, s')) : ∃ k, s' = { s with k := k } ∧ KT t0 N L ch np k := by
  simp only [execResult] at hc
  split at hc
  · next k hk =>
    simp only [Prod.mk.injEq, true_and] at hc
    refine ⟨k, hc.symm, ?_⟩
    have := h.pop
    rwa [hk] at this
  · simp at hc

/-- the standard descriptors are open -/
def Std3 (L : List (Int × Obj × Bool)) : Prop := (0, Obj.old 0, false) ∈ L ∧ (1, Obj.old 1, false) ∈ L ∧ (2, Obj.old 2, false) ∈ L

theorem JT.big (h : JT t0 N n L t) (h3 : Std3 L) {a : Nat} (ha : t a = none) : 2 < a := by
  obtain ⟨h0, h1, h2⟩ := h3
  refine Nat.lt_of_not_le fun hle => ?_
  have : a = 0 ∨ a = 1 ∨ a = 2 := by omega
  rcases this with rfl | rfl | rfl
  · obtain ⟨_, ⟨x, x1, _⟩, _⟩ := h.held _ h0; simp [ha] at x1
  · obtain ⟨_, ⟨x, x1, _⟩, _⟩ := h.held _ h1; simp [ha] at x1
  · obtain ⟨_, ⟨x, x1, _⟩, _⟩ := h.held _ h2; simp [ha] at x1

theorem freeNone {l : Nat} {t : Tab} {a : Nat} (h : free l t = some a) : t a = none := by
  have := List.find?_some h
  simpa using this

theorem mkPipe_true {k k' : K} (h : KT t0 N L ch np k) (h3 : Std3 L) {a b : Nat} (hp : mkPipe k = (some (a, b), k')) :
    KT t0 N ((a, .pipeR k.nextId, false) :: (b, .pipeW k.nextId, false) :: L) ch np k' ∧ 2 < a ∧ 2 < b ∧ (∀ p ∈ L, p.2.1.before k.nextId) ∧ k'.nextId = k.nextId + 1 := by
  have hq : ∃ k1 : K, Exec.pop k = (true, k1) ∧ k1.nextId = k.nextId ∧ k1.tab = k.tab ∧ k1.children = k.children ∧ k1.nextPid = k.nextPid := by
    simp only [mkPipe] at hp
    simp only [Exec.pop] at hp ⊢
    cases hf : k.fails with
    | nil => exact ⟨k, rfl, rfl, rfl, rfl, rfl⟩
    | cons x r =>
      rw [hf] at hp
      cases x with
      | true => simp at hp
      | false => exact ⟨{ k with fails := r }, rfl, rfl, rfl, rfl, rfl⟩
  obtain ⟨k1, q1, q2, q3, q4, q5⟩ := hq
  simp only [mkPipe, q1] at hp
  rw [← q2]
  have h' : KT t0 N L ch np k1 := ⟨by rw [q2, q3]; exact h.jt, q4.trans h.ch, q5.trans h.np⟩
  split at hp
  · simp at hp
  · next a' ha' =>
    split at hp
    · simp at hp
    · next b' hb' =>
      simp only [Prod.mk.injEq, Option.some.injEq] at hp
      obtain ⟨⟨rfl, rfl⟩, rfl⟩ := hp
      have ha := freeNone ha'
      have hb := freeNone hb'
      have j0 := h'.jt.mono (Nat.le_succ k1.nextId)
      have j1 := j0.alloc ha (o := .pipeR k1.nextId) (Nat.lt_succ_self _) false
      have j2 := j1.alloc hb (o := .pipeW k1.nextId) (Nat.lt_succ_self _) false
      refine ⟨⟨j2.sub ?_ ?_, h'.ch, h'.np⟩, h'.jt.big h3 ha, j1.big ?_ hb, fun p hp => h'.jt.before hp, rfl⟩
      · intro p hp; refine ⟨p.2.2, ?_, id⟩; simp only [List.mem_cons] at hp ⊢; tauto
      · intro p hp; right; refine ⟨p.2.1, p.2.2, ?_⟩; simp only [List.mem_cons] at hp ⊢; tauto
      · exact ⟨List.mem_cons_of_mem _ h3.1, List.mem_cons_of_mem _ h3.2.1, List.mem_cons_of_mem _ h3.2.2⟩

theorem pipe_true {s s' : S} {put : Nat → Nat → S → S} (h : KT t0 N L ch np s.k) (h3 : Std3 L) (hp : doPipe put s = (true, s')) :
    ∃ a b k, s' = put a b { s with k := k } ∧ KT t0 N ((a, .pipeR s.k.nextId, false) :: (b, .pipeW s.k.nextId, false) :: L) ch np k ∧ 2 < a ∧ 2 < b ∧
      (∀ p ∈ L, p.2.1.before s.k.nextId) ∧ k.nextId = s.k.nextId + 1 := by
  simp only [doPipe] at hp
  split at hp
  · simp at hp
  · next a b k hk =>
    simp only [Prod.mk.injEq, true_and] at hp
    exact ⟨a, b, k, hp.symm, mkPipe_true h h3 hk⟩

theorem openFile_true {k k' : K} (h : KT t0 N L ch np k) (h3 : Std3 L) {name : Str} {w : Bool} {a : Nat} (hp : openFile k name w = (some a, k')) :
    KT t0 N ((a, .file k.nextId name w, false) :: L) ch np k' ∧ 2 < a ∧ (∀ p ∈ L, p.2.1.before k.nextId) ∧ k'.nextId = k.nextId + 1 := by
  have hq : ∃ k1 : K, Exec.pop k = (true, k1) ∧ k1.nextId = k.nextId ∧ k1.tab = k.tab ∧ k1.children = k.children ∧ k1.nextPid = k.nextPid := by
    simp only [openFile] at hp
    simp only [Exec.pop] at hp ⊢
    cases hf : k.fails with
    | nil => exact ⟨k, rfl, rfl, rfl, rfl, rfl⟩
    | cons x r =>
      rw [hf] at hp
      cases x with
      | true => simp at hp
      | false => exact ⟨{ k with fails := r }, rfl, rfl, rfl, rfl, rfl⟩
  obtain ⟨k1, q1, q2, q3, q4, q5⟩ := hq
  simp only [openFile, q1] at hp
  rw [← q2]
  have h' : KT t0 N L ch np k1 := ⟨by rw [q2, q3]; exact h.jt, q4.trans h.ch, q5.trans h.np⟩
  split at hp
  · simp at hp
  · next a' ha' =>
    simp only [Prod.mk.injEq, Option.some.injEq] at hp
    obtain ⟨rfl, rfl⟩ := hp
    have ha := freeNone ha'
    exact ⟨⟨(h'.jt.mono (Nat.le_succ k1.nextId)).alloc ha (o := .file k1.nextId name w) (Nat.lt_succ_self _) false, h'.ch, h'.np⟩, h'.jt.big h3 ha, fun p hp => h'.jt.before hp, rfl⟩

theorem fcntl_true {k k' : K} {v : Int} {f : Fd → Fd} (hc : fcntl k v f = (true, k')) :
    0 ≤ v ∧ ∃ x, k.tab v.toNat = some x ∧ k'.tab = setTab k.tab v.toNat (some (f x)) ∧ k'.nextId = k.nextId ∧ k'.children = k.children ∧ k'.nextPid = k.nextPid := by
  have hq : ∃ k1 : K, popCtl k = (true, k1) ∧ k1.nextId = k.nextId ∧ k1.tab = k.tab ∧ k1.children = k.children ∧ k1.nextPid = k.nextPid := by
    simp only [fcntl] at hc
    simp only [popCtl] at hc ⊢
    cases hf : k.ctl with
    | nil => exact ⟨k, rfl, rfl, rfl, rfl, rfl⟩
    | cons x r =>
      rw [hf] at hc
      cases x with
      | true => simp at hc
      | false => exact ⟨{ k with ctl := r }, rfl, rfl, rfl, rfl, rfl⟩
  obtain ⟨k1, q1, q2, q3, q4, q5⟩ := hq
  simp only [fcntl, q1] at hc
  split at hc
  · simp at hc
  · next hv =>
    split at hc
    · simp at hc
    · next x hx =>
      simp only [Prod.mk.injEq, true_and] at hc
      subst hc
      exact ⟨by omega, x, by rw [← q3]; exact hx, by rw [← q3], q2, q4, q5⟩

/-- `fcntl( v, F_SETFD, FD_CLOEXEC )` -/
theorem cloexec_true {s s' : S} {v : S → Int} (h : KT t0 N L ch np s.k) (hc : doCtl v cloexecOn s = (true, s')) (h0 : ∃ o b, (v s, o, b) ∈ L)
    (h1 : ∀ p ∈ L', ∃ b, (p.1, p.2.1, b) ∈ L ∧ (p.2.2 = true → b = true ∨ p.1 = v s)) (h2 : ∀ p ∈ L, p.1 ≤ 2 ∨ ∃ o b, (p.1, o, b) ∈ L') :
    ∃ k, s' = { s with k := k } ∧ KT t0 N L' ch np k ∧ k.nextId = s.k.nextId := by
  simp only [doCtl, Prod.mk.injEq] at hc
  obtain ⟨hc1, hc2⟩ := hc
  rcases hf : fcntl s.k (v s) cloexecOn with ⟨r, k'⟩
  rw [hf] at hc1 hc2
  simp only at hc1 hc2
  subst hc1
  obtain ⟨_, x, x1, x2, x3, x4, x5⟩ := fcntl_true hf
  refine ⟨k', hc2.symm, ⟨?_, x4.trans h.ch, x5.trans h.np⟩, x3⟩
  rw [x2, x3]
  refine h.jt.flag x1 (f := cloexecOn) (fun _ => rfl) (fun _ _ => rfl) h0 (fun p hp => ?_) h2
  obtain ⟨b, hb, hb'⟩ := h1 p hp
  exact ⟨b, hb, fun hh => (hb' hh).imp id fun h => ⟨h, fun _ => rfl⟩⟩

/-- `fcntl( v, F_SETFL, … | O_NONBLOCK )` -/
theorem nonblock_true {s s' : S} {v : S → Int} (h : KT t0 N L ch np s.k) (hc : doCtl v nonblockOn s = (true, s')) (h0 : ∃ o b, (v s, o, b) ∈ L) :
    ∃ k, s' = { s with k := k } ∧ KT t0 N L ch np k ∧ k.nextId = s.k.nextId := by
  simp only [doCtl, Prod.mk.injEq] at hc
  obtain ⟨hc1, hc2⟩ := hc
  rcases hf : fcntl s.k (v s) nonblockOn with ⟨r, k'⟩
  rw [hf] at hc1 hc2
  simp only at hc1 hc2
  subst hc1
  obtain ⟨_, x, x1, x2, x3, x4, x5⟩ := fcntl_true hf
  refine ⟨k', hc2.symm, ⟨?_, x4.trans h.ch, x5.trans h.np⟩, x3⟩
  rw [x2, x3]
  exact h.jt.flag x1 (f := nonblockOn) (fun _ => rfl) (fun _ hh => hh) h0 (fun p hp => ⟨p.2.2, hp, Or.inl⟩) (fun p hp => Or.inr ⟨p.2.1, p.2.2, hp⟩)

theorem KT.close {k : K} (h : KT t0 N L ch np k) {v : Int} {o : Obj} {b : Bool} (h0 : (v, o, b) ∈ L) (hv : 2 < v) (h1 : ∀ p ∈ L', p ∈ L ∧ p.2.1 ≠ o)
    (h2 : ∀ p ∈ L, p.1 = v ∨ p.1 ≤ 2 ∨ ∃ o b, (p.1, o, b) ∈ L') : KT t0 N L' ch np { k with tab := cleanTab k.tab v } := by
  refine ⟨?_, h.ch, h.np⟩
  show JT t0 N k.nextId L' (cleanTab k.tab v)
  rw [cleanTab, if_pos hv]
  exact h.jt.close h0 hv h1 h2

theorem mem_mid {A B : List (Int × Obj × Bool)} {x p : Int × Obj × Bool} : p ∈ A ++ x :: B ↔ p = x ∨ p ∈ A ++ B := by simp; tauto

/-- the same for one entry of the list -/
theorem cloexec_at {s s' : S} {v : S → Int} {A B : List (Int × Obj × Bool)} {o : Obj} {b : Bool} (h : KT t0 N (A ++ (v s, o, b) :: B) ch np s.k) (hc : doCtl v cloexecOn s = (true, s')) :
    ∃ k, s' = { s with k := k } ∧ KT t0 N (A ++ (v s, o, true) :: B) ch np k ∧ k.nextId = s.k.nextId := by
  refine cloexec_true h hc ⟨o, b, mem_mid.mpr (Or.inl rfl)⟩ (fun p hp => ?_) (fun p hp => Or.inr ?_)
  · rcases mem_mid.mp hp with rfl | hp
    · exact ⟨b, mem_mid.mpr (Or.inl rfl), fun _ => Or.inr rfl⟩
    · exact ⟨p.2.2, mem_mid.mpr (Or.inr hp), Or.inl⟩
  · rcases mem_mid.mp hp with rfl | hp
    · exact ⟨o, true, mem_mid.mpr (Or.inl rfl)⟩
    · exact ⟨p.2.1, p.2.2, mem_mid.mpr (Or.inr hp)⟩

theorem KT.close_at {k : K} {A B : List (Int × Obj × Bool)} {v : Int} {o : Obj} {b : Bool} (h : KT t0 N (A ++ (v, o, b) :: B) ch np k) (hv : 2 < v) (h1 : ∀ p ∈ A ++ B, p.2.1 ≠ o) :
    KT t0 N (A ++ B) ch np { k with tab := cleanTab k.tab v } := by
  refine h.close (mem_mid.mpr (Or.inl rfl)) hv (fun p hp => ⟨mem_mid.mpr (Or.inr hp), h1 p hp⟩) (fun p hp => ?_)
  rcases mem_mid.mp hp with rfl | hp
  · exact Or.inl rfl
  · exact Or.inr (Or.inr ⟨p.2.1, p.2.2, hp⟩)

/-! ### The descriptors of a child -/

theorem setTab_same (t : Tab) (a : Nat) (e : Option Fd) : setTab t a e a = e := by simp [setTab]
theorem setTab_ne (t : Tab) {a x : Nat} (e : Option Fd) (h : x ≠ a) : setTab t a e x = t x := by simp [setTab, h]

theorem dup2_ne (t : Tab) (v : Int) {m x : Nat} (h : x ≠ m) : dup2 t v m x = t x := by
  simp only [dup2]
  split
  · rfl
  · cases t v.toNat with
    | none => rfl
    | some e => exact setTab_ne _ _ h

theorem dup2_same (t : Tab) {v : Int} (hv : 0 ≤ v) {e : Fd} (h : t v.toNat = some e) (m : Nat) : dup2 t v m m = some { e with cloexec := false } := by
  simp [dup2, show ¬ v < 0 by omega, h, setTab]

/-- What standard input is connected to. -/
def InIs (L : List (Int × Obj × Bool)) (v : Int) (o : Option Obj) : Prop := (v < 0 ∧ o = none) ∨ ∃ x b, o = some x ∧ (v, x, b) ∈ L ∧ (v = 0 ∨ 2 < v)

structure ChildIs (t0 : Tab) (N : List Nat) (i : Option Obj) (o e : Obj) (tab : Nat → Option Obj) : Prop where
  inp : tab 0 = i
  out : tab 1 = some o
  err : tab 2 = some e
  rest : ∀ fd, 2 < fd → tab fd = if fd ∈ N then none else afterExec t0 fd

theorem childTab_is {s : S} (h : JT t0 N n L s.k.tab) {oe og : Obj} (he : (s.e0, oe, false) ∈ L) (hg : (s.g0, og, false) ∈ L) (he2 : 2 < s.e0) (hg2 : 2 < s.g0) (h3 : Std3 L)
    (hcl : ∀ p ∈ L, p.1 ≤ 2 ∨ p.1 = s.e0 ∨ p.1 = s.g0 ∨ p.2.2 = true) {io : Option Obj} (hi : InIs L s.sIn io) (hie : io ≠ some oe ∧ io ≠ some og)
    {oo : Obj} {b1 : Bool} (ho : (s.sOut, oo, b1) ∈ L) (ho1 : s.sOut = 1 ∨ 2 < s.sOut) (hoe : oo ≠ oe ∧ oo ≠ og)
    {ee : Obj} {b2 : Bool} (hx : (s.sErr, ee, b2) ∈ L) (hx1 : 0 < s.sErr) (hxe : ee ≠ oe ∧ ee ≠ og) :
    ChildIs t0 N io oo (if s.sErr = 1 then oo else ee) (childTab s) := by
  obtain ⟨a0, a1, a2⟩ := h3
  let t1 := setTab (setTab s.k.tab s.e0.toNat none) s.g0.toNat none
  have keep : ∀ {v : Int} {o : Obj} {b : Bool}, (v, o, b) ∈ L → o ≠ oe → o ≠ og → ∃ x, t1 v.toNat = some x ∧ x.obj = o := by
    intro v o b hv h1 h2
    obtain ⟨_, ⟨x, x1, x2, _⟩, _⟩ := h.held _ hv
    refine ⟨x, ?_, x2⟩
    show setTab (setTab s.k.tab s.e0.toNat none) s.g0.toNat none v.toNat = some x
    rw [setTab_ne _ _ (h.ne hv hg h2), setTab_ne _ _ (h.ne hv he h1)]
    exact x1
  have low : ∀ x : Nat, x ≤ 2 → t1 x = s.k.tab x := by
    intro x hx
    show setTab (setTab s.k.tab s.e0.toNat none) s.g0.toNat none x = _
    rw [setTab_ne _ _ (by omega), setTab_ne _ _ (by omega)]
  let t2 := if 0 < s.sIn then dup2 t1 s.sIn 0 else if s.sIn < 0 then setTab t1 0 none else t1
  have k2 : ∀ x : Nat, x ≠ 0 → t2 x = t1 x := by
    intro x hx
    show (if 0 < s.sIn then dup2 t1 s.sIn 0 else if s.sIn < 0 then setTab t1 0 none else t1) x = _
    split
    · exact dup2_ne _ _ hx
    · split
      · exact setTab_ne _ _ hx
      · rfl
  have z2 : (t2 0).map Fd.obj = io := by
    show ((if 0 < s.sIn then dup2 t1 s.sIn 0 else if s.sIn < 0 then setTab t1 0 none else t1) 0).map Fd.obj = io
    rcases hi with ⟨hi, rfl⟩ | ⟨x, b, rfl, hi, hv⟩
    · rw [if_neg (by omega), if_pos hi, setTab_same]; rfl
    · obtain ⟨y, y1, y2⟩ := keep hi (fun e => hie.1 (by rw [e])) (fun e => hie.2 (by rw [e]))
      rcases hv with hv | hv
      · rw [if_neg (by omega), if_neg (by omega)]
        rw [hv] at y1
        have y1 : t1 0 = some y := y1
        rw [y1]; simp [y2]
      · rw [if_pos (by omega), dup2_same t1 (by omega) y1]; simp [y2]
  let t3 := if s.sOut ≠ 1 then dup2 t2 s.sOut 1 else t2
  have k3 : ∀ x : Nat, x ≠ 1 → t3 x = t2 x := by
    intro x hx
    show (if s.sOut ≠ 1 then dup2 t2 s.sOut 1 else t2) x = _
    split
    · exact dup2_ne _ _ hx
    · rfl
  have z3 : (t3 1).map Fd.obj = some oo := by
    show ((if s.sOut ≠ 1 then dup2 t2 s.sOut 1 else t2) 1).map Fd.obj = _
    obtain ⟨y, y1, y2⟩ := keep ho hoe.1 hoe.2
    rcases ho1 with hv | hv
    · rw [if_neg (by omega), k2 1 (by omega)]
      rw [hv] at y1
      have y1 : t1 1 = some y := y1
      rw [y1]; simp [y2]
    · rw [if_pos (by omega), dup2_same t2 (by omega) (by rw [k2 _ (by omega)]; exact y1)]; simp [y2]
  let t4 := if s.sErr ≠ 2 then dup2 t3 s.sErr 2 else t3
  have k4 : ∀ x : Nat, x ≠ 2 → t4 x = t3 x := by
    intro x hx
    show (if s.sErr ≠ 2 then dup2 t3 s.sErr 2 else t3) x = _
    split
    · exact dup2_ne _ _ hx
    · rfl
  have z4 : (t4 2).map Fd.obj = some (if s.sErr = 1 then oo else ee) := by
    show ((if s.sErr ≠ 2 then dup2 t3 s.sErr 2 else t3) 2).map Fd.obj = _
    obtain ⟨y, y1, y2⟩ := keep hx hxe.1 hxe.2
    by_cases h1 : s.sErr = 1
    · rw [if_pos (by omega), if_pos h1, h1]
      rcases h31 : t3 1 with _ | z
      · rw [h31] at z3; simp at z3
      · rw [dup2_same t3 (v := 1) (by omega) (e := z) h31]
        rw [h31] at z3
        simpa using z3
    · rw [if_neg h1]
      by_cases h2 : s.sErr = 2
      · rw [if_neg (by omega), k3 2 (by omega), k2 2 (by omega)]
        rw [h2] at y1
        have y1 : t1 2 = some y := y1
        rw [y1]; simp [y2]
      · rw [if_pos h2, dup2_same t3 (by omega) (e := y) (by rw [k3 _ (by omega), k2 _ (by omega)]; exact y1)]; simp [y2]
  have hch : childTab s = afterExec (inherit (inherit (inherit t4 0) 1) 2) := rfl
  have ae : ∀ (t : Tab) (x : Nat) (o : Option Obj), (t x).map Fd.obj = o → afterExec (inherit t x) x = o := by
    intro t x o ht
    simp only [afterExec, inherit, setTab_same]
    rcases hh : t x with _ | y
    · rw [hh] at ht; simpa using ht
    · rw [hh] at ht; simpa using ht
  have ai : ∀ (t : Tab) (x m : Nat), x ≠ m → inherit t m x = t x := fun t x m hm => setTab_ne _ _ hm
  have aa : ∀ (t t' : Tab) (x : Nat), t x = t' x → afterExec t x = afterExec t' x := by
    intro t t' x hh; simp only [afterExec, hh]
  refine ⟨?_, ?_, ?_, fun fd hfd => ?_⟩
  · rw [hch, aa _ (inherit t4 0) 0 (by rw [ai _ _ _ (by omega), ai _ _ _ (by omega)])]
    exact ae _ _ _ (by rw [k4 0 (by omega), k3 0 (by omega)]; exact z2)
  · rw [hch, aa _ (inherit (inherit t4 0) 1) 1 (by rw [ai _ _ _ (by omega)])]
    exact ae _ _ _ (by rw [ai _ _ _ (by omega), k4 1 (by omega)]; exact z3)
  · rw [hch]
    exact ae _ _ _ (by rw [ai _ _ _ (by omega), ai _ _ _ (by omega)]; exact z4)
  · rw [hch, aa _ t1 fd (by rw [ai _ _ _ (by omega), ai _ _ _ (by omega), ai _ _ _ (by omega), k4 _ (by omega), k3 _ (by omega), k2 _ (by omega)])]
    have gone : ∀ v : Int, 2 < v → (t0 v.toNat = none ∨ v.toNat ∈ N) → t1 v.toNat = none → afterExec t1 v.toNat = if v.toNat ∈ N then none else afterExec t0 v.toNat := by
      intro v _ h1 h2
      simp only [afterExec, h2]
      split
      · rfl
      · next hh => rcases h1 with h1 | h1
                   · rw [h1]
                   · exact absurd h1 hh
    by_cases eg : fd = s.g0.toNat
    · subst eg
      refine gone s.g0 hg2 ((h.held _ hg).2.2 hg2) ?_
      exact setTab_same _ _ _
    by_cases ee : fd = s.e0.toNat
    · subst ee
      refine gone s.e0 he2 ((h.held _ he).2.2 he2) ?_
      show setTab (setTab s.k.tab s.e0.toNat none) s.g0.toNat none _ = none
      rw [setTab_ne _ _ eg]; exact setTab_same _ _ _
    have et : t1 fd = s.k.tab fd := by
      show setTab (setTab s.k.tab s.e0.toNat none) s.g0.toNat none fd = _
      rw [setTab_ne _ _ eg, setTab_ne _ _ ee]
    rw [aa _ s.k.tab fd et]
    rcases h.cl fd hfd with ⟨o, b, hm⟩ | ⟨h1, h2⟩ | ⟨h1, h2⟩
    · have hb : b = true := by
        rcases hcl _ hm with hh | hh | hh | hh
        · simp only at hh; omega
        · simp only at hh; omega
        · simp only at hh; omega
        · exact hh
      obtain ⟨_, ⟨x, x1, _, x3⟩, x4⟩ := h.held _ hm
      simp only [Int.toNat_natCast] at x1 x4
      have hc := x3 hb
      simp only [afterExec, x1, hc, if_true]
      split
      · rfl
      · next hh => rcases x4 (by omega) with h1 | h1
                   · rw [h1]
                   · exact absurd h1 hh
    · rw [if_neg h1]; exact aa _ _ _ h2
    · rw [if_pos h1]; simp only [afterExec, h2]

/-! ### One command -/

/-- the variables of the call -/
def vars (s : S) : List Int := [s.rOut, s.rErr, s.rSig, s.sig, s.std0, s.std1, s.std2, s.next, s.sIn, s.sOut, s.sErr]

theorem fork_true {i : Nat} {s s' : S} (h : KT t0 N L ch np s.k) (hf : fork i s = (true, s')) :
    ∃ k pids, s' = { s with k := k, forkPids := pids } ∧ KT t0 N L (ch ++ [⟨np, i, childTab s⟩]) (np + 1) k := by
  simp only [fork] at hf
  split at hf
  · simp at hf
  · simp only [Prod.mk.injEq, true_and] at hf
    subst hf
    refine ⟨_, _, rfl, ⟨h.jt, ?_, ?_⟩⟩
    · simp [h.ch, h.np]
    · simp [h.np]

theorem before_ne {o : Obj} {m : Nat} (h : o.before m) : o ≠ .pipeR m ∧ o ≠ .pipeW m := by
  constructor <;> (rintro rfl; exact Nat.lt_irrefl _ h)

theorem create_true {i : Nat} {s s' : S} (h : KT t0 N L ch np s.k) (h3 : Std3 L) (hcl : ∀ p ∈ L, p.1 ≤ 2 ∨ p.2.2 = true) {io : Option Obj} (hi : InIs L s.sIn io)
    {oo : Obj} {b1 : Bool} (ho : (s.sOut, oo, b1) ∈ L) (ho1 : s.sOut = 1 ∨ 2 < s.sOut) {ee : Obj} {b2 : Bool} (hx : (s.sErr, ee, b2) ∈ L) (hx1 : 0 < s.sErr)
    (hc : create i s = (true, s')) :
    vars s' = vars s ∧ ∃ tab, KT t0 N L (ch ++ [⟨np, i, tab⟩]) (np + 1) s'.k ∧ ChildIs t0 N io oo (if s.sErr = 1 then oo else ee) tab := by
  simp only [create, seq_true, orElse_true, upd_true, block, unblock] at hc
  obtain ⟨m1, hp1, m2, hp2, m3, ⟨m3', hq1, hq2⟩, m4, rfl, m5, hf, m6, rfl, m7, rfl, m8, hc1, m9, rfl, m10, rfl, m11, he, rfl⟩ := hc
  obtain ⟨a, b, k1, rfl, K1, a2, b2', bef1, id1⟩ := pipe_true h h3 hp1
  have h3' : Std3 ((↑a, Obj.pipeR s.k.nextId, false) :: (↑b, Obj.pipeW s.k.nextId, false) :: L) :=
    ⟨by simp [h3.1], by simp [h3.2.1], by simp [h3.2.2]⟩
  obtain ⟨a', b', k2, rfl, K2, a2', b2'', bef2, id2⟩ := pipe_true K1 h3' hp2
  generalize hI : s.k.nextId = I at *
  have id1 : k1.nextId = I + 1 := id1
  simp only [id1] at K2 bef2 id2
  obtain ⟨k3, rfl, K3, id3⟩ := cloexec_at (A := [(a', Obj.pipeR (I + 1), false), (b', Obj.pipeW (I + 1), false), (a, Obj.pipeR I, false)]) (B := L) (o := .pipeW I) (b := false) K2 hq1
  obtain ⟨k4, rfl, K4, id4⟩ := cloexec_at (A := [(a', Obj.pipeR (I + 1), false)]) (B := (a, Obj.pipeR I, false) :: (b, Obj.pipeW I, true) :: L) (o := .pipeW (I + 1)) (b := false) K3 hq2
  obtain ⟨k5, pids, rfl, K5⟩ := fork_true (s := { s with k := { k4 with masked := true }, e0 := a, e1 := b, g0 := a', g1 := b' }) ⟨K4.jt, K4.ch, K4.np⟩ hf
  have n1 : ∀ p ∈ L, p.2.1 ≠ Obj.pipeR I ∧ p.2.1 ≠ Obj.pipeW I := fun p hp => before_ne (bef1 p hp)
  have n2 : ∀ p ∈ L, p.2.1 ≠ Obj.pipeR (I + 1) ∧ p.2.1 ≠ Obj.pipeW (I + 1) := fun p hp => before_ne ((bef1 p hp).mono (Nat.le_succ I))
  -- the write end of the error pipe
  have K6 := KT.close_at (A := [((a' : Int), Obj.pipeR (I + 1), false), (b', Obj.pipeW (I + 1), true), (a, Obj.pipeR I, false)]) (B := L) (v := b) (o := .pipeW I) (b := true) K5 (by omega)
    (by intro p hp
        simp only [List.cons_append, List.nil_append, List.mem_cons] at hp
        rcases hp with rfl | rfl | rfl | hp
        · simp
        · simp
        · simp
        · exact (n1 p hp).2)
  have K7 := KT.close_at (A := [((a' : Int), Obj.pipeR (I + 1), false)]) (B := (a, Obj.pipeR I, false) :: L) (v := b') (o := .pipeW (I + 1)) (b := true) K6 (by omega)
    (by intro p hp
        simp only [List.cons_append, List.nil_append, List.mem_cons] at hp
        rcases hp with rfl | rfl | hp
        · simp
        · simp
        · exact (n2 p hp).2)
  obtain ⟨k8, rfl, K8⟩ := call_true K7 hc1
  have K9 := KT.close_at (A := []) (B := ((a : Int), Obj.pipeR I, false) :: L) (v := a') (o := .pipeR (I + 1)) (b := false) K8 (by omega)
    (by intro p hp
        simp only [List.nil_append, List.mem_cons] at hp
        rcases hp with rfl | hp
        · simp
        · exact (n2 p hp).1)
  have he : execResult { s with k := { k8 with tab := cleanTab k8.tab a', masked := s.k.masked }, forkPids := pids, e0 := a, e1 := cleanVal b, g0 := cleanVal a', g1 := cleanVal b' } = (true, m11) := he
  obtain ⟨k10, rfl, K10⟩ := exec_true (L := ((a : Int), Obj.pipeR I, false) :: L) (ch := ch ++ [⟨np, i, _⟩]) (np := np + 1) ⟨K9.jt, K9.ch, K9.np⟩ he
  have K11 := KT.close_at (A := []) (B := L) (v := a) (o := .pipeR I) (b := false) K10 (by omega) (fun p hp => (n1 p hp).1)
  refine ⟨rfl, _, K11, ?_⟩
  have hin : ∀ {x : Int × Obj × Bool}, x ∈ L → x ∈ ((a' : Int), Obj.pipeR (I + 1), false) :: (b', Obj.pipeW (I + 1), true) :: (a, Obj.pipeR I, false) :: (b, Obj.pipeW I, true) :: L := by
    intro x hx; simp [hx]
  refine childTab_is (s := { s with k := { k4 with masked := true }, e0 := a, e1 := b, g0 := a', g1 := b' }) (oe := .pipeR I) (og := .pipeR (I + 1)) K4.jt (by simp) (by simp) (by show (2 : Int) < a; omega) (by show (2 : Int) < a'; omega)
    ⟨hin h3.1, hin h3.2.1, hin h3.2.2⟩ ?_ (io := io) ?_ ?_ (hin ho) ho1 ⟨(n1 _ ho).1, (n2 _ ho).1⟩ (hin hx) hx1 ⟨(n1 _ hx).1, (n2 _ hx).1⟩
  · intro p hp
    simp only [List.cons_append, List.nil_append, List.mem_cons] at hp
    rcases hp with rfl | rfl | rfl | rfl | hp
    · right; right; left; rfl
    · right; right; right; rfl
    · right; left; rfl
    · right; right; right; rfl
    · rcases hcl p hp with h | h
      · exact Or.inl h
      · exact Or.inr (Or.inr (Or.inr h))
  · rcases hi with hi | ⟨x, b, h1, h2, h4⟩
    · exact Or.inl hi
    · exact Or.inr ⟨x, b, h1, hin h2, h4⟩
  · rcases hi with ⟨_, rfl⟩ | ⟨x, b, rfl, h2, _⟩
    · simp
    · simpa using ⟨(n1 _ h2).1, (n2 _ h2).1⟩

theorem Std3.app {A : List (Int × Obj × Bool)} (h : Std3 L) : Std3 (A ++ L) := ⟨List.mem_append_right _ h.1, List.mem_append_right _ h.2.1, List.mem_append_right _ h.2.2⟩

theorem InIs.mono {v : Int} {o : Option Obj} (h : InIs L v o) (hl : ∀ p ∈ L, p ∈ L') : InIs L' v o := by
  rcases h with h | ⟨x, b, h1, h2, h3⟩
  · exact Or.inl h
  · exact Or.inr ⟨x, b, h1, hl _ h2, h3⟩

theorem nextPipe_true {s s' : S} (h : KT t0 N L ch np s.k) (h3 : Std3 L) (hp : nextPipe s = (true, s')) :
    ∃ (a b : Nat) (k : K), s' = { s with k := k, next := a, sOut := b } ∧ KT t0 N ((a, .pipeR s.k.nextId, true) :: (b, .pipeW s.k.nextId, true) :: L) ch np k ∧ 2 < a ∧ 2 < b ∧
      (∀ p ∈ L, p.2.1.before s.k.nextId) := by
  simp only [nextPipe] at hp
  split at hp
  · simp at hp
  · next a b k hk =>
    obtain ⟨K1, a2, b2, bef, _⟩ := mkPipe_true h h3 hk
    split at hp
    · next s1 hs1 =>
      simp only [Prod.mk.injEq, true_and] at hp
      obtain ⟨m, hm1, hm2⟩ := seq_true.mp hs1
      obtain ⟨k2, rfl, K2, _⟩ := cloexec_at (A := []) (B := (b, .pipeW s.k.nextId, false) :: L) (o := .pipeR s.k.nextId) (b := false) (s := { s with k := k }) (v := fun _ => (a : Int)) K1 hm1
      obtain ⟨k3, rfl, K3, _⟩ := cloexec_at (A := [((a : Int), .pipeR s.k.nextId, true)]) (B := L) (o := .pipeW s.k.nextId) (b := false) (v := fun _ => (b : Int)) K2 hm2
      exact ⟨a, b, k3, hp.symm, K3, a2, b2, bef⟩
    · simp at hp

/-- The variables that stay during the loop, and what they refer to. -/
structure Base (LB : List (Int × Obj × Bool)) (io : Option Obj) (oo eo : Obj) (s : S) : Prop where
  std3 : Std3 LB
  cl : ∀ p ∈ LB, p.1 ≤ 2 ∨ p.2.2 = true
  inp : InIs LB s.std0 io
  out : ∃ b, (s.std1, oo, b) ∈ LB
  out1 : s.std1 = 1 ∨ 2 < s.std1
  err : ∃ b, (s.std2, eo, b) ∈ LB
  err1 : 1 < s.std2

def b7 (s : S) : List Int := [s.rOut, s.rErr, s.rSig, s.sig, s.std0, s.std1, s.std2]

theorem Base.mono {LB : List (Int × Obj × Bool)} {io : Option Obj} {oo eo : Obj} {s s' : S} (h : Base LB io oo eo s) (hb : b7 s' = b7 s) : Base LB io oo eo s' := by
  simp only [b7, List.cons.injEq, and_true] at hb
  obtain ⟨_, _, _, _, h1, h2, h3⟩ := hb
  exact ⟨h.std3, h.cl, by rw [h1]; exact h.inp, by rw [h2]; exact h.out, by rw [h2]; exact h.out1, by rw [h3]; exact h.err, by rw [h3]; exact h.err1⟩

/-- the entry of the pipe to the next command, if there is one -/
def NxIs (LB nx : List (Int × Obj × Bool)) (s : S) : Prop :=
  (nx = [] ∧ s.next = s.std0) ∨ ∃ (a id : Nat), nx = [((a : Int), Obj.pipeR id, true)] ∧ s.next = a ∧ 2 < a ∧ ∀ p ∈ LB, p.2.1.before id

/-- Where the error output of a command goes whose output goes to `o`. -/
def errObj (c : Cfg) (oo eo o : Obj) (std1 : Int) : Obj := if c.merge then (if std1 = 1 then o else oo) else eo

theorem clSIn_true {LB nx : List (Int × Obj × Bool)} {io : Option Obj} {oo eo : Obj} {s : S} (hb : Base LB io oo eo s) {A : List (Int × Obj × Bool)} (hk : KT t0 N (A ++ (nx ++ LB)) ch np s.k)
    (hn : (nx = [] ∧ s.sIn = s.std0) ∨ ∃ (a id : Nat), nx = [((a : Int), Obj.pipeR id, true)] ∧ s.sIn = a ∧ 2 < a ∧ ∀ p ∈ A ++ LB, p.2.1 ≠ .pipeR id) :
    KT t0 N (A ++ LB) ch np (clSIn s).k ∧ b7 (clSIn s) = b7 s ∧ (clSIn s).sOut = s.sOut ∧ (clSIn s).sErr = s.sErr ∧ (clSIn s).next = s.next := by
  rcases hn with ⟨rfl, hn⟩ | ⟨a, id, rfl, hn, ha, hne⟩
  · have e : clSIn s = s := by simp [clSIn, hn]
    rw [e]
    exact ⟨hk, rfl, rfl, rfl, rfl⟩
  · have hneq : s.sIn ≠ s.std0 := by
      rcases hb.inp with ⟨h, _⟩ | ⟨x, b, _, hx, _⟩
      · omega
      · have hx1 : (s.std0, x, b) ∈ A ++ LB := List.mem_append_right _ hx
        have := hk.jt.ne (v := a) (o := .pipeR id) (b := true) (by simp) (w := s.std0) (o' := x) (b' := b) (by simp [hx]) (fun e => hne _ hx1 e.symm)
        omega
    have e : clSIn s = { withTab s (cleanTab s.k.tab s.sIn) with sIn := cleanVal s.sIn } := by simp only [clSIn, ne_eq, hneq, not_false_eq_true, if_true]
    rw [e]
    refine ⟨?_, rfl, rfl, rfl, rfl⟩
    show KT t0 N (A ++ LB) ch np { s.k with tab := cleanTab s.k.tab s.sIn }
    rw [hn]
    exact KT.close_at (A := A) (B := LB) (o := .pipeR id) (b := true) hk (by omega) hne

theorem command_true {c : Cfg} {i : Nat} {LB nx : List (Int × Obj × Bool)} {io io' : Option Obj} {oo eo : Obj} {s s' : S} (hb : Base LB io oo eo s) (hn : NxIs LB nx s)
    (hi : InIs (nx ++ LB) s.next io') (hk : KT t0 N (nx ++ LB) ch np s.k) (hc : command c i s = (true, s')) :
    b7 s' = b7 s ∧ ∃ tab,
      (i + 1 = c.n → s'.next = -1 ∧ KT t0 N LB (ch ++ [⟨np, i, tab⟩]) (np + 1) s'.k ∧ ChildIs t0 N io' oo (errObj c oo eo oo s.std1) tab) ∧
      (i + 1 ≠ c.n → ∃ a J : Nat, s'.next = a ∧ 2 < a ∧ (∀ p ∈ nx ++ LB, p.2.1.before J) ∧ KT t0 N ([((a : Int), .pipeR J, true)] ++ LB) (ch ++ [⟨np, i, tab⟩]) (np + 1) s'.k ∧
        ChildIs t0 N io' (.pipeW J) (errObj c oo eo (.pipeW J) s.std1) tab) := by
  simp only [command, seq_true, orElse_true, upd_true] at hc
  obtain ⟨m1, rfl, m2, h2, m3, rfl, m4, h4, m5, rfl, m6, rfl, rfl⟩ := hc
  have hcl : ∀ p ∈ nx ++ LB, p.1 ≤ 2 ∨ p.2.2 = true := by
    intro p hp
    rcases List.mem_append.mp hp with hp | hp
    · rcases hn with ⟨rfl, _⟩ | ⟨a, id, rfl, _⟩
      · simp at hp
      · simp at hp; subst hp; exact Or.inr rfl
    · exact hb.cl p hp
  obtain ⟨bo, ho⟩ := hb.out
  obtain ⟨be, he⟩ := hb.err
  by_cases hl : i + 1 = c.n
  · rw [if_pos hl] at h2
    have h2 := upd_true.mp h2
    subst h2
    have hx : ∃ b, ((if c.merge then s.std1 else s.std2), (if c.merge then oo else eo), b) ∈ nx ++ LB := by
      cases c.merge
      · exact ⟨be, List.mem_append_right _ he⟩
      · exact ⟨bo, List.mem_append_right _ ho⟩
    obtain ⟨bx, hx⟩ := hx
    have hx1 : 0 < (if c.merge then s.std1 else s.std2) := by
      have := hb.out1; have := hb.err1
      split <;> omega
    obtain ⟨hv, tab, K, C⟩ := create_true (s := { s with sIn := s.next, next := -1, sOut := s.std1, sErr := if c.merge then s.std1 else s.std2 }) hk hb.std3.app hcl hi
      (List.mem_append_right _ ho) hb.out1 hx hx1 h4
    simp only [vars, List.cons.injEq, and_true] at hv
    obtain ⟨v1, v2, v3, v4, v5, v6, v7, v8, v9, v10, v11⟩ := hv
    have hb4 : b7 m4 = b7 s := by simp only [b7]; rw [v1, v2, v3, v4, v5, v6, v7]
    have hbm : Base LB io oo eo m4 := hb.mono hb4
    obtain ⟨K5, q1, q2, q3, q4⟩ := clSIn_true (A := []) hbm K (by
      rcases hn with ⟨h1, h2⟩ | ⟨a, id, h1, h2, h3, h5⟩
      · exact Or.inl ⟨h1, by rw [v9, v5]; exact h2⟩
      · exact Or.inr ⟨a, id, h1, by rw [v9]; exact h2, h3, fun p hp => (before_ne (h5 p hp)).1⟩)
    generalize hm5 : clSIn m4 = m5 at *
    have e1 : clSOut m5 = m5 := by
      have : m5.sOut = m5.std1 := by
        simp only [b7, List.cons.injEq, and_true] at q1
        rw [q2, v10, q1.2.2.2.2.2.1, v6]
      simp [clSOut, this]
    rw [e1]
    have e2 : clSErr c m5 = m5 := by
      simp only [clSErr]
      split
      · next hh =>
        exfalso
        simp only [b7, List.cons.injEq, and_true] at q1
        apply hh.1
        rw [q3, v11, q1.2.2.2.2.2.2, v7]
        simp [hh.2]
      · rfl
    rw [e2]
    refine ⟨q1.trans hb4, tab, fun _ => ⟨by rw [q4, v8], K5, ?_⟩, fun h => absurd hl h⟩
    simp only [errObj]
    have := hb.err1
    cases hm : c.merge
    · simp only [hm] at C ⊢
      simpa [show s.std2 ≠ 1 by omega] using C
    · simp only [hm] at C ⊢
      simpa using C
  · rw [if_neg hl] at h2
    obtain ⟨a, b, k, rfl, K1, ha, hb2, bef⟩ := nextPipe_true (s := { s with sIn := s.next }) hk hb.std3.app h2
    generalize hJ : s.k.nextId = J at *
    have sub : ∀ p ∈ nx ++ LB, p ∈ ((a : Int), Obj.pipeR J, true) :: (b, Obj.pipeW J, true) :: (nx ++ LB) := fun p hp => List.mem_cons_of_mem _ (List.mem_cons_of_mem _ hp)
    have hx : ∃ b, ((if c.merge then s.std1 else s.std2), (if c.merge then oo else eo), b) ∈ nx ++ LB := by
      cases c.merge
      · exact ⟨be, List.mem_append_right _ he⟩
      · exact ⟨bo, List.mem_append_right _ ho⟩
    obtain ⟨bx, hx⟩ := hx
    have hx1 : 0 < (if c.merge then s.std1 else s.std2) := by
      have := hb.out1; have := hb.err1
      split <;> omega
    obtain ⟨hv, tab, K, C⟩ := create_true (s := { s with sIn := s.next, k := k, next := a, sOut := b, sErr := if c.merge then s.std1 else s.std2 })
      (L := ((a : Int), Obj.pipeR J, true) :: (b, Obj.pipeW J, true) :: (nx ++ LB)) (oo := .pipeW J) (b1 := true)
      K1 ⟨sub _ hb.std3.app.1, sub _ hb.std3.app.2.1, sub _ hb.std3.app.2.2⟩
      (by intro p hp
          simp only [List.mem_cons] at hp
          rcases hp with rfl | rfl | hp
          · exact Or.inr rfl
          · exact Or.inr rfl
          · exact hcl p hp) (hi.mono sub)
      (by simp) (Or.inr (by show (2 : Int) < b; omega)) (sub _ hx) hx1 h4
    simp only [vars, List.cons.injEq, and_true] at hv
    obtain ⟨v1, v2, v3, v4, v5, v6, v7, v8, v9, v10, v11⟩ := hv
    have hb4 : b7 m4 = b7 s := by simp only [b7]; rw [v1, v2, v3, v4, v5, v6, v7]
    have hbm : Base LB io oo eo m4 := hb.mono hb4
    obtain ⟨K5, q1, q2, q3, q4⟩ := clSIn_true (A := [((a : Int), Obj.pipeR J, true), (b, Obj.pipeW J, true)]) (nx := nx) hbm K (by
      rcases hn with ⟨h1, h2⟩ | ⟨a', id, h1, h2, h3, h5⟩
      · exact Or.inl ⟨h1, by rw [v9, v5]; exact h2⟩
      · refine Or.inr ⟨a', id, h1, by rw [v9]; exact h2, h3, fun p hp => ?_⟩
        simp only [List.cons_append, List.nil_append, List.mem_cons] at hp
        have hid : id < J := bef (a', .pipeR id, true) (by simp [h1])
        rcases hp with rfl | rfl | hp
        · intro e; simp only [Obj.pipeR.injEq] at e; omega
        · simp
        · exact (before_ne (h5 p hp)).1)
    generalize hm5 : clSIn m4 = m5 at *
    simp only [b7, List.cons.injEq, and_true] at q1
    obtain ⟨w1, w2, w3, w4, w5, w6, w7⟩ := q1
    have hso : m5.sOut = b := by rw [q2, v10]
    have hne : m5.sOut ≠ m5.std1 := by
      have := K5.jt.ne (v := b) (o := .pipeW J) (b := true) (by simp) (w := s.std1) (o' := oo) (b' := bo) (by simp [ho]) (fun e => (before_ne (bef _ (List.mem_append_right _ ho))).2 e.symm)
      have hh := hb.out1
      have : m5.std1 = s.std1 := by rw [w6, v6]
      omega
    have e1 : clSOut m5 = { withTab m5 (cleanTab m5.k.tab b) with sOut := cleanVal b } := by
      simp only [clSOut]
      rw [if_pos hne, hso]
    rw [e1]
    have e2 : clSErr c { withTab m5 (cleanTab m5.k.tab b) with sOut := cleanVal b } = { withTab m5 (cleanTab m5.k.tab b) with sOut := cleanVal b } := by
      simp only [clSErr]
      split
      · next hh =>
        exfalso
        apply hh.1
        show m5.sErr = m5.std2
        rw [q3, v11, w7, v7]
        simp [hh.2]
      · rfl
    rw [e2]
    have K6 := KT.close_at (A := [((a : Int), Obj.pipeR J, true)]) (B := LB) (v := b) (o := .pipeW J) (b := true) K5 (by omega) (by
      intro p hp
      simp only [List.cons_append, List.nil_append, List.mem_cons] at hp
      rcases hp with rfl | hp
      · simp
      · exact (before_ne (bef p (List.mem_append_right _ hp))).2)
    refine ⟨?_, tab, fun h => absurd h hl, fun _ => ⟨a, J, by show m5.next = a; rw [q4, v8], ha, bef, K6, ?_⟩⟩
    · show b7 m5 = b7 s
      simp only [b7]; rw [w1, w2, w3, w4, w5, w6, w7, v1, v2, v3, v4, v5, v6, v7]
    · simp only [errObj]
      have := hb.err1
      cases hm : c.merge
      · simp only [hm] at C ⊢
        simpa [show s.std2 ≠ 1 by omega] using C
      · simp only [hm] at C ⊢
        simpa using C

/-! ### All commands -/

/-- Where the output of command `x` goes. -/
def outObj (c : Cfg) (oo : Obj) (lk : Nat → Nat) (x : Nat) : Obj := if x + 1 = c.n then oo else .pipeW (lk x)

theorem commands_true {c : Cfg} {LB : List (Int × Obj × Bool)} {io : Option Obj} {oo eo : Obj} :
    ∀ (m i : Nat) (ch : List Child) (np : Nat) (nx : List (Int × Obj × Bool)) (io' : Option Obj) (s s' : S), i + m = c.n → 0 < m → Base LB io oo eo s → NxIs LB nx s →
      InIs (nx ++ LB) s.next io' → KT t0 N (nx ++ LB) ch np s.k → commands c i m s = (true, s') →
      b7 s' = b7 s ∧ s'.next = -1 ∧ ∃ (kids : List Child) (lk : Nat → Nat), KT t0 N LB (ch ++ kids) (np + m) s'.k ∧ kids.length = m ∧
        (∀ j, i ≤ j → j + 1 < c.n → ∀ p ∈ nx ++ LB, p.2.1.before (lk j)) ∧ (∀ j j', i ≤ j → j < j' → j' + 1 < c.n → lk j < lk j') ∧
        ∀ j, j < m → ∃ tab, kids[j]? = some ⟨np + j, i + j, tab⟩ ∧
          ChildIs t0 N (if j = 0 then io' else some (.pipeR (lk (i + j - 1)))) (outObj c oo lk (i + j)) (errObj c oo eo (outObj c oo lk (i + j)) s.std1) tab
  | 0, _, _, _, _, _, _, _, _, h, _, _, _, _, _ => absurd h (by omega)
  | m + 1, i, ch, np, nx, io', s, s', hm, _, hb, hn, hi, hk, hc => by
    obtain ⟨m1, h1, h2⟩ := seq_true.mp hc
    obtain ⟨q1, tab, last, link⟩ := command_true hb hn hi hk h1
    by_cases hl : i + 1 = c.n
    · have hm0 : m = 0 := by omega
      subst hm0
      have h2 : s' = m1 := by simp only [commands, ok, Prod.mk.injEq, true_and] at h2; exact h2.symm
      subst h2
      obtain ⟨e1, K, C⟩ := last hl
      refine ⟨q1, e1, [⟨np, i, tab⟩], fun _ => 0, K, rfl, fun j h1 h2 => by omega, fun j j' h1 h2 h3 => by omega, fun j hj => ?_⟩
      have : j = 0 := by omega
      subst this
      refine ⟨tab, rfl, ?_⟩
      simpa [outObj, hl] using C
    · obtain ⟨a, J, e1, ha, bef, K, C⟩ := link hl
      have hs1 : m1.std1 = s.std1 := by simp only [b7, List.cons.injEq, and_true] at q1; exact q1.2.2.2.2.2.1
      obtain ⟨r1, r2, kids, lk, r3, r4, r5, r6, r7⟩ := commands_true m (i + 1) _ _ [((a : Int), Obj.pipeR J, true)] (some (.pipeR J)) m1 s' (by omega) (by omega) (hb.mono q1)
        (Or.inr ⟨a, J, rfl, e1, ha, fun p hp => bef p (List.mem_append_right _ hp)⟩) (Or.inr ⟨.pipeR J, true, rfl, by simp [e1], Or.inr (by omega)⟩) K h2
      refine ⟨r1.trans q1, r2, ⟨np, i, tab⟩ :: kids, fun x => if x = i then J else lk x, ?_, by simp [r4], ?_, ?_, ?_⟩
      · rw [List.append_assoc] at r3
        rw [show np + (m + 1) = np + 1 + m by omega]
        exact r3
      · intro j h1 h2 p hp
        by_cases e : j = i
        · simp only [e, if_true]; exact bef p hp
        · simp only [e, if_false]
          have hJ : J < lk j := r5 j (by omega) h2 ((a : Int), Obj.pipeR J, true) (by simp)
          exact (bef p hp).mono (by omega)
      · intro j j' h1 h2 h3
        have e' : j' ≠ i := by omega
        by_cases e : j = i
        · simp only [e, e', if_true, if_false]
          exact r5 j' (by omega) h3 ((a : Int), Obj.pipeR J, true) (by simp)
        · simp only [e, e', if_false]
          exact r6 j j' (by omega) h2 h3
      · intro j hj
        rcases j with _ | j
        · refine ⟨tab, rfl, ?_⟩
          simpa [outObj, hl] using C
        · obtain ⟨tab', t1, t2⟩ := r7 j (by omega)
          refine ⟨tab', ?_, ?_⟩
          · rw [List.getElem?_cons_succ, t1]
            congr 2 <;> omega
          · have g : outObj c oo (fun x => if x = i then J else lk x) (i + (j + 1)) = outObj c oo lk (i + 1 + j) := by
              simp only [outObj]
              rw [show i + (j + 1) = i + 1 + j by omega, if_neg (show i + 1 + j ≠ i by omega)]
            rw [g, ← hs1]
            have g2 : (if j + 1 = 0 then io' else some (Obj.pipeR ((fun x => if x = i then J else lk x) (i + (j + 1) - 1)))) = (if j = 0 then some (.pipeR J) else some (.pipeR (lk (i + 1 + j - 1)))) := by
              rw [if_neg (by omega)]
              rcases j with _ | j
              · simp
              · rw [if_neg (by omega)]
                simp only [show i + (j + 1 + 1) - 1 = i + 1 + (j + 1) - 1 by omega, if_neg (show i + 1 + (j + 1) - 1 ≠ i by omega)]
            rw [g2]
            exact t2

/-! ### The preparation -/

/-- the descriptors handed over by the caller; those in `d` are known to be closed by `exec` -/
def natE (N d : List Nat) : List (Int × Obj × Bool) := N.map (fun x : Nat => ((x : Int), Obj.old x, decide (x ∈ d)))

theorem mem_natE {N d : List Nat} {p : Int × Obj × Bool} : p ∈ natE N d ↔ ∃ x : Nat, x ∈ N ∧ p = ((x : Int), Obj.old x, decide (x ∈ d)) := by
  simp only [natE, List.mem_map]
  exact ⟨fun ⟨x, h1, h2⟩ => ⟨x, h1, h2.symm⟩, fun ⟨x, h1, h2⟩ => ⟨x, h1, h2.symm⟩⟩

theorem native_true {s s' : S} {A : List (Int × Obj × Bool)} {d : List Nat} {r : Nat} (h : KT t0 N (A ++ natE N d) ch np s.k) (hr : r ∈ N) (hc : doCtl (fun _ => (r : Int)) cloexecOn s = (true, s')) :
    ∃ k, s' = { s with k := k } ∧ KT t0 N (A ++ natE N (r :: d)) ch np k ∧ k.nextId = s.k.nextId := by
  refine cloexec_true h hc ⟨.old r, decide (r ∈ d), List.mem_append_right _ (mem_natE.mpr ⟨r, hr, rfl⟩)⟩ (fun p hp => ?_) (fun p hp => Or.inr ?_)
  · rcases List.mem_append.mp hp with hp | hp
    · exact ⟨p.2.2, List.mem_append_left _ hp, Or.inl⟩
    · obtain ⟨x, hx, rfl⟩ := mem_natE.mp hp
      refine ⟨decide (x ∈ d), List.mem_append_right _ (mem_natE.mpr ⟨x, hx, rfl⟩), fun hh => ?_⟩
      simp only [decide_eq_true_eq, List.mem_cons] at hh ⊢
      rcases hh with hh | hh
      · exact Or.inr (by rw [hh])
      · exact Or.inl hh
  · rcases List.mem_append.mp hp with hp | hp
    · exact ⟨p.2.1, p.2.2, List.mem_append_left _ hp⟩
    · obtain ⟨x, hx, rfl⟩ := mem_natE.mp hp
      exact ⟨_, _, List.mem_append_right _ (mem_natE.mpr ⟨x, hx, rfl⟩)⟩

/-- What standard input is connected to, in the words of the caller. -/
def InSpec : In → Option Obj → Prop
  | .none, o => o = none
  | .file name, o => ∃ id, o = some (.file id name false)
  | .shared, o => o = some (.old 0)
  | .native r _, o => o = some (.old r)

/-- What an output is connected to: the pipe with number `id` the caller reads, or what was asked for. -/
def OutSpec (sh id : Nat) : Out → Obj → Prop
  | .pipe, o => o = .pipeW id
  | .file name, o => ∃ f, id < f ∧ o = .file f name true
  | .shared, o => o = .old sh
  | .native _ w, o => o = .old w

def inNat : In → List Nat
  | .native r w => [r, w]
  | _ => []

def outNat : Out → List Nat
  | .native r w => [r, w]
  | _ => []

/-- entries of one variable -/
def Of (v : Int) (E : List (Int × Obj × Bool)) : Prop := ∀ p ∈ E, p.1 = v ∧ p.2.2 = true

theorem of_nil (v : Int) : Of v [] := fun p hp => by simp at hp
theorem of_one (v : Int) (o : Obj) : Of v [(v, o, true)] := fun p hp => by simp at hp; subst hp; exact ⟨rfl, rfl⟩

theorem stdin_true {i : In} {s s' : S} {A : List (Int × Obj × Bool)} {d : List Nat} (h : KT t0 N (A ++ natE N d) ch np s.k) (h3 : Std3 A) (hN : ∀ x ∈ inNat i, x ∈ N ∧ 2 < x) (hc : stdinStep i s = (true, s')) :
    ∃ E io d' k v, s' = { s with k := k, std0 := v } ∧ KT t0 N (E ++ A ++ natE N d') ch np k ∧ InSpec i io ∧ InIs (E ++ A ++ natE N d') v io ∧ Of v E ∧ (∀ x ∈ d, x ∈ d') ∧ (∀ x ∈ inNat i, x ∈ d') := by
  have h3' : Std3 (A ++ natE N d) := ⟨List.mem_append_left _ h3.1, List.mem_append_left _ h3.2.1, List.mem_append_left _ h3.2.2⟩
  cases i with
  | none =>
    simp only [stdinStep, upd_true] at hc
    exact ⟨[], none, d, s.k, -1, hc, h, rfl, Or.inl ⟨by omega, rfl⟩, of_nil _, fun x hx => hx, fun x hx => by simp [inNat] at hx⟩
  | shared =>
    simp only [stdinStep, upd_true] at hc
    exact ⟨[], some (.old 0), d, s.k, 0, hc, h, rfl, Or.inr ⟨.old 0, false, rfl, h3'.1, Or.inl rfl⟩, of_nil _, fun x hx => hx, fun x hx => by simp [inNat] at hx⟩
  | native r w =>
    simp only [stdinStep, seq_true, upd_true] at hc
    obtain ⟨m1, rfl, m2, h1, h2⟩ := hc
    have hr := hN r (by simp [inNat])
    have hw := hN w (by simp [inNat])
    obtain ⟨k1, rfl, K1, _⟩ := native_true (s := { s with std0 := r }) h hr.1 h1
    obtain ⟨k2, rfl, K2, _⟩ := native_true K1 hw.1 h2
    refine ⟨[], some (.old r), w :: r :: d, k2, r, rfl, K2, rfl, Or.inr ⟨.old r, true, rfl, ?_, Or.inr (by omega)⟩, of_nil _, fun x hx => by simp [hx], fun x hx => ?_⟩
    · exact List.mem_append_right _ (mem_natE.mpr ⟨r, hr.1, by simp⟩)
    · simp only [inNat, List.mem_cons, List.not_mem_nil, or_false] at hx ⊢; tauto
  | file name =>
    simp only [stdinStep, seq_true] at hc
    obtain ⟨m1, h1, h2⟩ := hc
    simp only [doOpen] at h1
    split at h1
    · simp at h1
    · next a k1 hk =>
      simp only [Prod.mk.injEq, true_and] at h1
      subst h1
      obtain ⟨K1, a2, _, _⟩ := openFile_true h h3' hk
      obtain ⟨k2, rfl, K2, _⟩ := cloexec_at (A := []) (B := A ++ natE N d) (o := .file s.k.nextId name false) (b := false) (s := { s with k := k1, std0 := a }) (v := S.std0) K1 h2
      exact ⟨[((a : Int), .file s.k.nextId name false, true)], some (.file s.k.nextId name false), d, k2, a, rfl, K2, ⟨_, rfl⟩, Or.inr ⟨_, true, rfl, by simp, Or.inr (by omega)⟩, of_one _ _,
        fun x hx => hx, fun x hx => by simp [inNat] at hx⟩

theorem outPipe_true {s s' : S} (h : KT t0 N L ch np s.k) (h3 : Std3 L) (hc : outPipe s = (true, s')) :
    ∃ (a b o : Nat) (k : K), s' = { s with k := k, rOut := a, std1 := b } ∧ KT t0 N ((a, .pipeR o, true) :: (b, .pipeW o, true) :: L) ch np k ∧ 2 < a ∧ 2 < b ∧ (∀ p ∈ L, p.2.1.before o) := by
  simp only [outPipe, seq_true] at hc
  obtain ⟨m1, h1, m2, h2, m4, h4, h5⟩ := hc
  obtain ⟨a, b, k1, rfl, K1, a2, b2, bef, _⟩ := pipe_true h h3 h1
  obtain ⟨k2, rfl, K2, _⟩ := cloexec_at (A := []) (B := (b, .pipeW s.k.nextId, false) :: L) (o := .pipeR s.k.nextId) (b := false) (v := S.rOut) K1 h2
  obtain ⟨k3, rfl, K3, _⟩ := cloexec_at (A := [((a : Int), .pipeR s.k.nextId, true)]) (B := L) (o := .pipeW s.k.nextId) (b := false) (v := S.std1) K2 h4
  obtain ⟨k4, rfl, K4, _⟩ := nonblock_true K3 h5 ⟨.pipeR s.k.nextId, true, by simp⟩
  exact ⟨a, b, s.k.nextId, k4, rfl, K4, a2, b2, bef⟩

theorem openOut_true {s s' : S} {name : Str} {put : Nat → S → S} (h : KT t0 N L ch np s.k) (h3 : Std3 L) (hp : openOut name put s = (true, s')) :
    ∃ (a f : Nat) (k : K), s' = put a { s with k := k } ∧ KT t0 N ((a, .file f name true, true) :: L) ch np k ∧ 2 < a ∧ (∀ p ∈ L, p.2.1.before f) := by
  simp only [openOut] at hp
  split at hp
  · simp at hp
  · next a k1 hk =>
    obtain ⟨m, hp1, hp2⟩ := seq_true.mp hp
    have hp2 := upd_true.mp hp2
    subst hp2
    obtain ⟨K1, a2, bef, _⟩ := openFile_true h h3 hk
    obtain ⟨k2, rfl, K2, _⟩ := cloexec_at (A := []) (B := L) (o := .file s.k.nextId name true) (b := false) (s := { s with k := k1 }) (v := fun _ => (a : Int)) K1 hp1
    exact ⟨a, s.k.nextId, k2, rfl, K2, a2, bef⟩

theorem outSetup_true {o : Out} {s s' : S} {id : Nat} {A : List (Int × Obj × Bool)} {d : List Nat} (h : KT t0 N ((s.rOut, .pipeR id, true) :: (s.std1, .pipeW id, true) :: (A ++ natE N d)) ch np s.k) (h3 : Std3 A)
    (hb : 2 < s.std1) (bef : ∀ p ∈ A ++ natE N d, p.2.1.before id) (hN : ∀ x ∈ outNat o, x ∈ N ∧ 2 < x) (hc : outSetup o s = (true, s')) :
    ∃ E oo d' k v b, s' = { s with k := k, std1 := v } ∧ KT t0 N ((s.rOut, .pipeR id, true) :: E ++ A ++ natE N d') ch np k ∧ OutSpec 1 id o oo ∧ (v, oo, b) ∈ E ++ A ++ natE N d' ∧ (v = 1 ∨ 2 < v) ∧
      (v = 1 ↔ o = .shared) ∧ Of v E ∧ (∀ x ∈ d, x ∈ d') ∧ (∀ x ∈ outNat o, x ∈ d') := by
  have h3' : Std3 (A ++ natE N d) := ⟨List.mem_append_left _ h3.1, List.mem_append_left _ h3.2.1, List.mem_append_left _ h3.2.2⟩
  have K0 := KT.close_at (A := [(s.rOut, .pipeR id, true)]) (B := A ++ natE N d) (v := s.std1) (o := .pipeW id) (b := true) h hb (by
    intro p hp
    simp only [List.cons_append, List.nil_append, List.mem_cons] at hp
    rcases hp with rfl | hp
    · simp
    · exact (before_ne (bef p hp)).2)
  cases o with
  | pipe =>
    simp only [outSetup, ok, Prod.mk.injEq, true_and] at hc
    subst hc
    refine ⟨[(s.std1, .pipeW id, true)], .pipeW id, d, s.k, s.std1, true, rfl, h, rfl, by simp, Or.inr hb, ?_, of_one _ _, fun x hx => hx, fun x hx => by simp [outNat] at hx⟩
    simp; omega
  | shared =>
    simp only [outSetup, seq_true, upd_true] at hc
    obtain ⟨m1, rfl, rfl⟩ := hc
    exact ⟨[], .old 1, d, _, 1, false, rfl, K0, rfl, h3'.2.1, Or.inl rfl, by simp, of_nil _, fun x hx => hx, fun x hx => by simp [outNat] at hx⟩
  | native r w =>
    simp only [outSetup, seq_true, upd_true] at hc
    obtain ⟨m1, rfl, m2, h1, m4, h2, rfl⟩ := hc
    have hr := hN r (by simp [outNat])
    have hw := hN w (by simp [outNat])
    obtain ⟨k1, rfl, K1, _⟩ := native_true (A := (s.rOut, .pipeR id, true) :: A) (s := clStd1 s) K0 hr.1 h1
    obtain ⟨k2, rfl, K2, _⟩ := native_true K1 hw.1 h2
    refine ⟨[], .old w, w :: r :: d, k2, w, true, rfl, K2, rfl, ?_, Or.inr (by omega), by simp; omega, of_nil _, fun x hx => by simp [hx], fun x hx => ?_⟩
    · exact List.mem_append_right _ (mem_natE.mpr ⟨w, hw.1, by simp⟩)
    · simp only [outNat, List.mem_cons, List.not_mem_nil, or_false] at hx ⊢; tauto
  | file name =>
    simp only [outSetup, seq_true, upd_true] at hc
    obtain ⟨m1, rfl, h1⟩ := hc
    obtain ⟨a, f, k1, rfl, K1, a2, bef'⟩ := openOut_true (s := clStd1 s) (L := (s.rOut, .pipeR id, true) :: (A ++ natE N d)) K0
      ⟨List.mem_cons_of_mem _ h3'.1, List.mem_cons_of_mem _ h3'.2.1, List.mem_cons_of_mem _ h3'.2.2⟩ h1
    have hf : id < f := bef' (s.rOut, .pipeR id, true) (by simp)
    refine ⟨[((a : Int), .file f name true, true)], .file f name true, d, k1, a, true, rfl, ⟨K1.jt.sub ?_ ?_, K1.ch, K1.np⟩, ⟨f, hf, rfl⟩, by simp, Or.inr (by omega), by simp; omega, of_one _ _,
      fun x hx => hx, fun x hx => by simp [outNat] at hx⟩
    · intro p hp; refine ⟨p.2.2, ?_, fun h => h⟩; simp only [List.cons_append, List.nil_append, List.mem_cons, List.mem_append] at hp ⊢; tauto
    · intro p hp; right; refine ⟨p.2.1, p.2.2, ?_⟩; simp only [List.cons_append, List.nil_append, List.mem_cons, List.mem_append] at hp ⊢; tauto

theorem errPipe_true {s s' : S} (h : KT t0 N L ch np s.k) (h3 : Std3 L) (hc : errPipe s = (true, s')) :
    ∃ (a b o : Nat) (k : K), s' = { s with k := k, rErr := a, std2 := b } ∧ KT t0 N ((a, .pipeR o, true) :: (b, .pipeW o, true) :: L) ch np k ∧ 2 < a ∧ 2 < b ∧ (∀ p ∈ L, p.2.1.before o) := by
  simp only [errPipe, seq_true] at hc
  obtain ⟨m1, h1, m2, h2, m4, h4, h5⟩ := hc
  obtain ⟨a, b, k1, rfl, K1, a2, b2, bef, _⟩ := pipe_true h h3 h1
  obtain ⟨k2, rfl, K2, _⟩ := cloexec_at (A := []) (B := (b, .pipeW s.k.nextId, false) :: L) (o := .pipeR s.k.nextId) (b := false) (v := S.rErr) K1 h2
  obtain ⟨k3, rfl, K3, _⟩ := cloexec_at (A := [((a : Int), .pipeR s.k.nextId, true)]) (B := L) (o := .pipeW s.k.nextId) (b := false) (v := S.std2) K2 h4
  obtain ⟨k4, rfl, K4, _⟩ := nonblock_true K3 h5 ⟨.pipeR s.k.nextId, true, by simp⟩
  exact ⟨a, b, s.k.nextId, k4, rfl, K4, a2, b2, bef⟩

theorem errSetup_true {o : Out} {s s' : S} {id : Nat} {A : List (Int × Obj × Bool)} {d : List Nat} (h : KT t0 N ((s.rErr, .pipeR id, true) :: (s.std2, .pipeW id, true) :: (A ++ natE N d)) ch np s.k) (h3 : Std3 A)
    (hb : 2 < s.std2) (bef : ∀ p ∈ A ++ natE N d, p.2.1.before id) (hN : ∀ x ∈ outNat o, x ∈ N ∧ 2 < x) (hc : errSetup o s = (true, s')) :
    ∃ E oo d' k v b, s' = { s with k := k, std2 := v } ∧ KT t0 N ((s.rErr, .pipeR id, true) :: E ++ A ++ natE N d') ch np k ∧ OutSpec 2 id o oo ∧ (v, oo, b) ∈ E ++ A ++ natE N d' ∧ (v = 2 ∨ 2 < v) ∧
      (v = 2 ↔ o = .shared) ∧ Of v E ∧ (∀ x ∈ d, x ∈ d') ∧ (∀ x ∈ outNat o, x ∈ d') := by
  have h3' : Std3 (A ++ natE N d) := ⟨List.mem_append_left _ h3.1, List.mem_append_left _ h3.2.1, List.mem_append_left _ h3.2.2⟩
  have K0 := KT.close_at (A := [(s.rErr, .pipeR id, true)]) (B := A ++ natE N d) (v := s.std2) (o := .pipeW id) (b := true) h hb (by
    intro p hp
    simp only [List.cons_append, List.nil_append, List.mem_cons] at hp
    rcases hp with rfl | hp
    · simp
    · exact (before_ne (bef p hp)).2)
  cases o with
  | pipe =>
    simp only [errSetup, ok, Prod.mk.injEq, true_and] at hc
    subst hc
    refine ⟨[(s.std2, .pipeW id, true)], .pipeW id, d, s.k, s.std2, true, rfl, h, rfl, by simp, Or.inr hb, ?_, of_one _ _, fun x hx => hx, fun x hx => by simp [outNat] at hx⟩
    simp; omega
  | shared =>
    simp only [errSetup, seq_true, upd_true] at hc
    obtain ⟨m1, rfl, rfl⟩ := hc
    exact ⟨[], .old 2, d, _, 2, false, rfl, K0, rfl, h3'.2.2, Or.inl rfl, by simp, of_nil _, fun x hx => hx, fun x hx => by simp [outNat] at hx⟩
  | native r w =>
    simp only [errSetup, seq_true, upd_true] at hc
    obtain ⟨m1, rfl, m2, h1, m4, h2, rfl⟩ := hc
    have hr := hN r (by simp [outNat])
    have hw := hN w (by simp [outNat])
    obtain ⟨k1, rfl, K1, _⟩ := native_true (A := (s.rErr, .pipeR id, true) :: A) (s := clStd2 s) K0 hr.1 h1
    obtain ⟨k2, rfl, K2, _⟩ := native_true K1 hw.1 h2
    refine ⟨[], .old w, w :: r :: d, k2, w, true, rfl, K2, rfl, ?_, Or.inr (by omega), by simp; omega, of_nil _, fun x hx => by simp [hx], fun x hx => ?_⟩
    · exact List.mem_append_right _ (mem_natE.mpr ⟨w, hw.1, by simp⟩)
    · simp only [outNat, List.mem_cons, List.not_mem_nil, or_false] at hx ⊢; tauto
  | file name =>
    simp only [errSetup, seq_true, upd_true] at hc
    obtain ⟨m1, rfl, h1⟩ := hc
    obtain ⟨a, f, k1, rfl, K1, a2, bef'⟩ := openOut_true (s := clStd2 s) (L := (s.rErr, .pipeR id, true) :: (A ++ natE N d)) K0
      ⟨List.mem_cons_of_mem _ h3'.1, List.mem_cons_of_mem _ h3'.2.1, List.mem_cons_of_mem _ h3'.2.2⟩ h1
    have hf : id < f := bef' (s.rErr, .pipeR id, true) (by simp)
    refine ⟨[((a : Int), .file f name true, true)], .file f name true, d, k1, a, true, rfl, ⟨K1.jt.sub ?_ ?_, K1.ch, K1.np⟩, ⟨f, hf, rfl⟩, by simp, Or.inr (by omega), by simp; omega, of_one _ _,
      fun x hx => hx, fun x hx => by simp [outNat] at hx⟩
    · intro p hp; refine ⟨p.2.2, ?_, fun h => h⟩; simp only [List.cons_append, List.nil_append, List.mem_cons, List.mem_append] at hp ⊢; tauto
    · intro p hp; right; refine ⟨p.2.1, p.2.2, ?_⟩; simp only [List.cons_append, List.nil_append, List.mem_cons, List.mem_append] at hp ⊢; tauto

theorem add_true {s s' : S} (h : KT t0 N L ch np s.k) (h3 : Std3 L) (hc : add s = (true, s')) :
    ∃ (a b q : Nat) (k : K), s' = { s with k := k, rSig := a, sig := b } ∧ KT t0 N ((a, .pipeR q, true) :: (b, .pipeW q, true) :: L) ch np k ∧ 2 < a ∧ 2 < b := by
  simp only [add, seq_true, upd_true] at hc
  obtain ⟨m1, h1, m2, h2, m4, h4, m5, h5, m6, h6, rfl⟩ := hc
  obtain ⟨a, b, k1, rfl, K1, a2, b2, bef, _⟩ := pipe_true h h3 h1
  obtain ⟨k2, rfl, K2, _⟩ := nonblock_true K1 h2 ⟨.pipeR s.k.nextId, false, by simp⟩
  obtain ⟨k3, rfl, K3, _⟩ := nonblock_true K2 h4 ⟨.pipeW s.k.nextId, false, by simp⟩
  obtain ⟨k4, rfl, K4, _⟩ := cloexec_at (A := []) (B := (b, .pipeW s.k.nextId, false) :: L) (o := .pipeR s.k.nextId) (b := false) (v := S.rSig) K3 h5
  obtain ⟨k5, rfl, K5, _⟩ := cloexec_at (A := [((a : Int), .pipeR s.k.nextId, true)]) (B := L) (o := .pipeW s.k.nextId) (b := false) (v := S.sig) K4 h6
  exact ⟨a, b, s.k.nextId, _, rfl, ⟨K5.jt, K5.ch, K5.np⟩, a2, b2⟩

theorem chdir_true {c : Cfg} {s s' : S} (h : KT t0 N L ch np s.k) (hc : chdirStep c s = (true, s')) : ∃ k d, s' = { s with k := k, realCwd := d } ∧ KT t0 N L ch np k := by
  simp only [chdirStep] at hc
  split at hc
  · simp only [Prod.mk.injEq, true_and] at hc
    exact ⟨s.k, s.realCwd, hc.symm, h⟩
  · split at hc
    · obtain ⟨m, h1, h2⟩ := seq_true.mp hc
      have h2 := upd_true.mp h2
      subst h2
      obtain ⟨k, rfl, K⟩ := call_true (s := { s with realCwd := some (some s.k.cwd) }) h h1
      exact ⟨_, _, rfl, ⟨K.jt, K.ch, K.np⟩⟩
    · simp at hc

/-- everything prepared for the loop -/
structure Ready (c : Cfg) (N : List Nat) (LB : List (Int × Obj × Bool)) (io : Option Obj) (oo eo : Obj) (o r : Nat) (s : S) : Prop where
  base : Base LB io oo eo s
  nx : s.next = s.std0
  inp : InSpec c.sin io
  out : OutSpec 1 o c.sout oo
  err : OutSpec 2 r c.serr eo
  sh : s.std1 = 1 ↔ c.sout = .shared
  ro : (s.rOut, .pipeR o, true) ∈ LB
  re : (s.rErr, .pipeR r, true) ∈ LB
  lt : o < r
  sg : c.detach = false → ∃ q, q < o ∧ (s.rSig, .pipeR q, true) ∈ LB ∧ (s.sig, .pipeW q, true) ∈ LB
  nosg : c.detach = true → s.rSig = -1 ∧ s.sig = -1
  all : ∀ p ∈ LB, p.1 ≤ 2 ∨ p.1.toNat ∈ N ∨ p.1 ∈ b7 s

def std3 : List (Int × Obj × Bool) := [(0, .old 0, false), (1, .old 1, false), (2, .old 2, false)]

/-- the list of the entries -/
def lbOf (a' : Int) (r : Nat) (Ee : List (Int × Obj × Bool)) (a : Int) (o : Nat) (Eo Ei sg : List (Int × Obj × Bool)) (N d : List Nat) : List (Int × Obj × Bool) :=
  ((a', .pipeR r, true) :: Ee ++ ((a, .pipeR o, true) :: Eo ++ (Ei ++ (sg ++ std3)))) ++ natE N d

theorem mem_lbOf {a' : Int} {r : Nat} {Ee : List (Int × Obj × Bool)} {a : Int} {o : Nat} {Eo Ei sg : List (Int × Obj × Bool)} {N d : List Nat} {p : Int × Obj × Bool} :
    p ∈ lbOf a' r Ee a o Eo Ei sg N d ↔ p = (a', .pipeR r, true) ∨ p ∈ Ee ∨ p = (a, .pipeR o, true) ∨ p ∈ Eo ∨ p ∈ Ei ∨ p ∈ sg ∨ p ∈ std3 ∨ p ∈ natE N d := by
  simp only [lbOf, List.cons_append, List.mem_cons, List.mem_append]
  tauto

theorem ready_of {c : Cfg} {s : S} {Ee Eo Ei sg : List (Int × Obj × Bool)} {d1 d2 d3 : List Nat} {io : Option Obj} {oo eo : Obj} {o r : Nat} {bo be : Bool} (hnx : s.next = s.std0) (hd3 : ∀ x ∈ N, x ∈ d3)
    (i1 : InSpec c.sin io) (i2 : InIs (Ei ++ (sg ++ std3) ++ natE N d1) s.std0 io) (i3 : Of s.std0 Ei)
    (o1 : OutSpec 1 o c.sout oo) (o2 : (s.std1, oo, bo) ∈ Eo ++ (Ei ++ (sg ++ std3)) ++ natE N d2) (o3 : s.std1 = 1 ∨ 2 < s.std1) (o4 : s.std1 = 1 ↔ c.sout = .shared) (o5 : Of s.std1 Eo)
    (e1 : OutSpec 2 r c.serr eo) (e2 : (s.std2, eo, be) ∈ Ee ++ ((s.rOut, .pipeR o, true) :: Eo ++ (Ei ++ (sg ++ std3))) ++ natE N d3) (e3 : s.std2 = 2 ∨ 2 < s.std2) (e5 : Of s.std2 Ee)
    (sg1 : c.detach = false → ∃ q, q < o ∧ (s.rSig, .pipeR q, true) ∈ sg ∧ (s.sig, .pipeW q, true) ∈ sg) (sg2 : c.detach = true → s.rSig = -1 ∧ s.sig = -1)
    (sg3 : ∀ p ∈ sg, p.2.2 = true ∧ (p.1 = s.rSig ∨ p.1 = s.sig)) (lt : o < r) :
    Ready c N (lbOf s.rErr r Ee s.rOut o Eo Ei sg N d3) io oo eo o r s := by
  have nat : ∀ {x : Int × Obj × Bool} {d : List Nat}, x ∈ natE N d → ∃ b, (x.1, x.2.1, b) ∈ natE N d3 := by
    intro x d hx
    obtain ⟨y, hy, rfl⟩ := mem_natE.mp hx
    exact ⟨_, mem_natE.mpr ⟨y, hy, rfl⟩⟩
  have h3 : ∀ p ∈ std3, p.1 ≤ 2 := by
    intro p hp
    simp only [std3, List.mem_cons, List.not_mem_nil, or_false] at hp; rcases hp with rfl | rfl | rfl <;> decide
  have in3 : ∀ p ∈ std3, p ∈ lbOf s.rErr r Ee s.rOut o Eo Ei sg N d3 := fun p hp => mem_lbOf.mpr (by simp only [hp, true_or, or_true])
  have inN : ∀ p ∈ natE N d3, p ∈ lbOf s.rErr r Ee s.rOut o Eo Ei sg N d3 := fun p hp => mem_lbOf.mpr (by simp only [hp, or_true])
  refine ⟨⟨⟨in3 _ (by simp [std3]), in3 _ (by simp [std3]), in3 _ (by simp [std3])⟩, ?_, ?_, ?_, o3, ?_, by omega⟩, hnx, i1, o1, e1, o4, ?_, ?_, lt, ?_, sg2, ?_⟩
  · intro p hp
    rcases mem_lbOf.mp hp with rfl | hp | rfl | hp | hp | hp | hp | hp
    · exact Or.inr rfl
    · exact Or.inr (e5 p hp).2
    · exact Or.inr rfl
    · exact Or.inr (o5 p hp).2
    · exact Or.inr (i3 p hp).2
    · exact Or.inr (sg3 p hp).1
    · exact Or.inl (h3 p hp)
    · obtain ⟨x, hx, rfl⟩ := mem_natE.mp hp
      right; simp [hd3 x hx]
  · rcases i2 with i2 | ⟨x, b, q1, q2, q3⟩
    · exact Or.inl i2
    · rcases List.mem_append.mp q2 with q2 | q2
      · refine Or.inr ⟨x, b, q1, mem_lbOf.mpr ?_, q3⟩
        simp only [List.mem_append] at q2
        rcases q2 with h | h | h <;> simp only [h, true_or, or_true]
      · obtain ⟨b', hb'⟩ := nat q2
        exact Or.inr ⟨x, b', q1, inN _ hb', q3⟩
  · rcases List.mem_append.mp o2 with q2 | q2
    · refine ⟨bo, mem_lbOf.mpr ?_⟩
      simp only [List.mem_append] at q2
      rcases q2 with h | h | h | h <;> simp only [h, true_or, or_true]
    · obtain ⟨b', hb'⟩ := nat q2
      exact ⟨b', inN _ hb'⟩
  · refine ⟨be, mem_lbOf.mpr ?_⟩
    simp only [List.cons_append, List.mem_cons, List.mem_append] at e2
    rcases e2 with (h | h | h | h | h | h) | h <;> simp only [h, true_or, or_true]
  · exact mem_lbOf.mpr (Or.inr (Or.inr (Or.inl rfl)))
  · exact mem_lbOf.mpr (Or.inl rfl)
  · intro hd
    obtain ⟨q, q0, q1, q2⟩ := sg1 hd
    exact ⟨q, q0, mem_lbOf.mpr (by simp only [q1, true_or, or_true]), mem_lbOf.mpr (by simp only [q2, true_or, or_true])⟩
  · intro p hp
    rcases mem_lbOf.mp hp with rfl | hp | rfl | hp | hp | hp | hp | hp
    · right; right; simp [b7]
    · right; right; simp [b7, (e5 p hp).1]
    · right; right; simp [b7]
    · right; right; simp [b7, (o5 p hp).1]
    · right; right; simp [b7, (i3 p hp).1]
    · right; right; rcases (sg3 p hp).2 with h | h <;> simp [b7, h]
    · exact Or.inl (h3 p hp)
    · obtain ⟨x, hx, rfl⟩ := mem_natE.mp hp
      right; left; simpa using hx

theorem ready {c : Cfg} {s s' : S} (hN : ∀ x, (x ∈ inNat c.sin ∨ x ∈ outNat c.sout ∨ x ∈ outNat c.serr) ↔ x ∈ N) (hN2 : ∀ x ∈ N, 2 < x) (h : KT t0 N (std3 ++ natE N []) ch np s.k)
    (h1 : s.rSig = -1 ∧ s.sig = -1) (hc : startUp c s = (true, s')) :
    ∃ LB io oo eo o r s1, commands c 0 c.n s1 = (true, s') ∧ KT t0 N LB ch np s1.k ∧ Ready c N LB io oo eo o r s1 := by
  simp only [startUp, seq_true, upd_true] at hc
  obtain ⟨m1, c1, m2, c2, m3, c3, m4, c4, m5, c5, m6, c6, m7, c7, m8, rfl, c8⟩ := hc
  obtain ⟨k1, cw, rfl, K1⟩ := chdir_true h c1
  -- the signal pipe
  have c2' : ∃ sg : List (Int × Obj × Bool), ∃ k2 g0 g1, m2 = { s with k := k2, realCwd := cw, rSig := g0, sig := g1 } ∧ KT t0 N ((sg ++ std3) ++ natE N []) ch np k2 ∧
      (c.detach = false → ∃ q, (g0, .pipeR q, true) ∈ sg ∧ (g1, .pipeW q, true) ∈ sg) ∧ (c.detach = true → g0 = -1 ∧ g1 = -1) ∧ (∀ p ∈ sg, p.2.2 = true ∧ (p.1 = g0 ∨ p.1 = g1)) := by
    by_cases hd : c.detach = true
    · rw [if_pos hd] at c2
      simp only [ok, Prod.mk.injEq, true_and] at c2
      subst c2
      exact ⟨[], k1, s.rSig, s.sig, rfl, K1, fun hh => by rw [hd] at hh; (cases hh), fun _ => h1, fun p hp => by simp at hp⟩
    · rw [if_neg hd] at c2
      obtain ⟨a, b, q, k2, rfl, K2, a2, b2⟩ := add_true (s := { s with k := k1, realCwd := cw }) K1 ⟨by simp [std3], by simp [std3], by simp [std3]⟩ c2
      refine ⟨[((a : Int), .pipeR q, true), ((b : Int), .pipeW q, true)], k2, a, b, rfl, K2, fun _ => ⟨q, by simp, by simp⟩, fun hh => absurd hh hd, fun p hp => ?_⟩
      simp only [List.mem_cons, List.not_mem_nil, or_false] at hp
      rcases hp with rfl | rfl
      · exact ⟨rfl, Or.inl rfl⟩
      · exact ⟨rfl, Or.inr rfl⟩
  obtain ⟨sg, k2, g0, g1, rfl, K2, sg1, sg2, sg3⟩ := c2'
  have hs3 : Std3 (sg ++ std3) := ⟨by simp [std3], by simp [std3], by simp [std3]⟩
  obtain ⟨Ei, io, d1, k3, v0, rfl, K3, i1, i2, i3, _, i5⟩ := stdin_true K2 hs3 (fun x hx => ⟨(hN x).mp (Or.inl hx), hN2 x ((hN x).mp (Or.inl hx))⟩) c3
  have hs4 : Std3 (Ei ++ (sg ++ std3)) := hs3.app
  obtain ⟨a, b, o, k4, rfl, K4, a2, b2, bef4⟩ := outPipe_true K3 ⟨List.mem_append_left _ hs4.1, List.mem_append_left _ hs4.2.1, List.mem_append_left _ hs4.2.2⟩ c4
  obtain ⟨Eo, oo, d2, k5, v1, bo, rfl, K5, o1, o2, o3, o4, o5, o6, o7⟩ := outSetup_true (A := Ei ++ (sg ++ std3)) (d := d1) K4 hs4 (by show (2 : Int) < b; omega) bef4
    (fun x hx => ⟨(hN x).mp (Or.inr (Or.inl hx)), hN2 x ((hN x).mp (Or.inr (Or.inl hx)))⟩) c5
  have hs5 : Std3 (((a : Int), .pipeR o, true) :: Eo ++ (Ei ++ (sg ++ std3))) := hs4.app
  obtain ⟨a', b', r, k6, rfl, K6, a2', b2', bef6⟩ := errPipe_true K5 ⟨List.mem_append_left _ hs5.1, List.mem_append_left _ hs5.2.1, List.mem_append_left _ hs5.2.2⟩ c6
  obtain ⟨Ee, eo, d3, k7, v2, be, hm7, K7, e1, e2, e3, e4, e5, e6, e7⟩ := errSetup_true (A := ((a : Int), .pipeR o, true) :: Eo ++ (Ei ++ (sg ++ std3))) (d := d2) K6 hs5 (by show (2 : Int) < b'; omega) bef6
    (fun x hx => ⟨(hN x).mp (Or.inr (Or.inr hx)), hN2 x ((hN x).mp (Or.inr (Or.inr hx)))⟩) c7
  have hd3 : ∀ x ∈ N, x ∈ d3 := by
    intro x hx
    rcases (hN x).mpr hx with h | h | h
    · exact e6 _ (o6 _ (i5 x h))
    · exact e6 _ (o7 x h)
    · exact e7 x h
  have f1 : m7.rErr = a' := by rw [hm7]
  have f2 : m7.rOut = a := by rw [hm7]
  have f3 : m7.rSig = g0 := by rw [hm7]
  have f4 : m7.sig = g1 := by rw [hm7]
  have f5 : m7.std0 = v0 := by rw [hm7]
  have f6 : m7.std1 = v1 := by rw [hm7]
  have f7 : m7.std2 = v2 := by rw [hm7]
  have f8 : m7.k = k7 := by rw [hm7]
  clear hm7 c7 c6 c5 c4 c3 c2 c1
  have hlt : o < r := bef6 ((a : Int), .pipeR o, true) (by simp)
  subst f3 f4 f5 f6 f7 f8
  have hr := ready_of (s := { m7 with next := m7.std0 }) (Ee := Ee) (Eo := Eo) (Ei := Ei) (sg := sg) (d1 := d1) (d2 := d2) (d3 := d3) (bo := bo) (be := be) rfl hd3 i1 i2 i3 o1 o2 o3 o4 o5 e1
    (by rw [f2]; exact e2) e3 e5 (fun hd => by
      obtain ⟨q, q1, q2⟩ := sg1 hd
      exact ⟨q, bef4 (m7.rSig, .pipeR q, true) (by simp [q1]), q1, q2⟩) sg2 sg3 hlt
  refine ⟨_, io, oo, eo, o, r, _, c8, ?_, hr⟩
  show KT t0 N (lbOf m7.rErr r Ee m7.rOut o Eo Ei sg N d3) ch np m7.k
  rw [f1, f2]
  exact K7

/-! ### The end -/

theorem JT.drop (h : JT t0 N n L t) {v : Int} (hv : v ≤ 2 ∨ t v.toNat = none ∨ ∃ o b, (v, o, b) ∈ L) : JT t0 N n (L.filter (fun p => decide (p.1 ≤ 2 ∨ p.1 ≠ v))) (cleanTab t v) := by
  have mem : ∀ p, p ∈ L.filter (fun p => decide (p.1 ≤ 2 ∨ p.1 ≠ v)) ↔ p ∈ L ∧ (p.1 ≤ 2 ∨ p.1 ≠ v) := fun p => by simp [List.mem_filter]
  simp only [cleanTab]
  split
  · next h2 =>
    refine ⟨fun fd x hx => ?_, fun p hp => ?_, fun fd hfd => ?_⟩
    · simp only [setTab] at hx
      split at hx
      · cases hx
      · exact h.fresh fd x hx
    · obtain ⟨hp, hn⟩ := (mem p).mp hp
      obtain ⟨a1, ⟨x, x1, x2, x3⟩, a3⟩ := h.held p hp
      exact ⟨a1, ⟨x, by rw [setTab_ne _ _ (by omega)]; exact x1, x2, x3⟩, a3⟩
    · by_cases e : fd = v.toNat
      · subst e
        right
        rw [setTab_same]
        by_cases hN : v.toNat ∈ N
        · exact Or.inr ⟨hN, rfl⟩
        · refine Or.inl ⟨hN, ?_⟩
          rcases hv with hv | hv | ⟨o, b, hv⟩
          · omega
          · rcases h.cl v.toNat (by omega) with ⟨o, b, hm⟩ | ⟨_, hh⟩ | ⟨hh, _⟩
            · obtain ⟨_, ⟨x, x1, _⟩, _⟩ := h.held _ hm
              simp only [Int.toNat_natCast] at x1
              rw [hv] at x1; cases x1
            · rw [← hh, hv]
            · exact absurd hh hN
          · rcases (h.held _ hv).2.2 h2 with h | h
            · exact h.symm
            · exact absurd h hN
      · rw [setTab_ne _ _ e]
        rcases h.cl fd hfd with ⟨o, b, hm⟩ | h | h
        · exact Or.inl ⟨o, b, (mem _).mpr ⟨hm, Or.inr (by simp only; omega)⟩⟩
        · exact Or.inr (Or.inl h)
        · exact Or.inr (Or.inr h)
  · next h2 =>
    refine h.sub (fun p hp => ⟨p.2.2, ((mem p).mp hp).1, id⟩) (fun p hp => ?_)
    by_cases hp2 : p.1 ≤ 2
    · exact Or.inl hp2
    · exact Or.inr ⟨p.2.1, p.2.2, (mem _).mpr ⟨hp, Or.inr (by simp only; omega)⟩⟩

/-- Where the error output of a command goes whose output goes to `o`. -/
def errTo (c : Cfg) (oo eo o : Obj) : Obj := if c.merge then (if c.sout = .shared then o else oo) else eo

/-- A descriptor of the caller. -/
def Has (s : S) (v : Int) (o : Obj) : Prop := 2 < v ∧ ∃ x, s.k.tab v.toNat = some x ∧ x.obj = o ∧ x.cloexec = true

theorem execute_wiring (c : Cfg) (s : S) (h0 : s.state ≠ .executing) (hlab : ∀ (fd : Nat) (x : Fd), s.k.tab fd = some x → x.obj = .old fd) (hstd : ∀ fd, fd ≤ 2 → (s.k.tab fd).isSome = true)
    (hnat : ∀ x ∈ natives c, 2 < x ∧ (s.k.tab x).isSome = true) (he : (execute c s).state = .executing) :
    ∃ (io : Option Obj) (oo eo : Obj) (o r : Nat) (lk : Nat → Nat) (kids : List Child),
      InSpec c.sin io ∧ OutSpec 1 o c.sout oo ∧ OutSpec 2 r c.serr eo ∧ o < r ∧ (∀ j, j + 1 < c.n → r < lk j) ∧ (∀ j j', j < j' → j' + 1 < c.n → lk j < lk j') ∧
      (execute c s).k.children = s.k.children ++ kids ∧ kids.length = c.n ∧
      (∀ j, j < c.n → ∃ tab, kids[j]? = some ⟨s.k.nextPid + j, j, tab⟩ ∧
        ChildIs s.k.tab (natives c) (if j = 0 then io else some (.pipeR (lk (j - 1)))) (outObj c oo lk j) (errTo c oo eo (outObj c oo lk j)) tab) ∧
      Has (execute c s) (execute c s).rOut (.pipeR o) ∧ Has (execute c s) (execute c s).rErr (.pipeR r) ∧
      (c.detach = false → ∃ q, q < o ∧ Has (execute c s) (execute c s).rSig (.pipeR q) ∧ Has (execute c s) (execute c s).sig (.pipeW q)) ∧
      (∀ fd : Nat, 2 < fd → fd ∉ natives c → (fd : Int) ∉ [(execute c s).rOut, (execute c s).rErr, (execute c s).rSig, (execute c s).sig] → (execute c s).k.tab fd = s.k.tab fd) := by
  by_cases hn : c.n < 1
  · simp [execute, h0, hn] at he
  rcases hx : startUp c (init c s) with ⟨_ | _, s'⟩
  · exfalso
    simp only [execute, h0, hn, if_false, hx] at he
    rw [(cleanupRest_k c (cleanupError s')).2] at he
    simp [cleanupError] at he
  have hE : execute c s = finish s' := by simp only [execute, h0, hn, if_false, hx]
  rw [hE]
  have hN : ∀ x, (x ∈ inNat c.sin ∨ x ∈ outNat c.sout ∨ x ∈ outNat c.serr) ↔ x ∈ natives c := by
    intro x
    simp only [natives, List.mem_append, inNat, outNat]
    tauto
  have hK : KT s.k.tab (natives c) (std3 ++ natE (natives c) []) s.k.children s.k.nextPid (init c s).k := by
    refine ⟨⟨fun fd x hx => ?_, fun p hp => ?_, fun fd hfd => ?_⟩, rfl, rfl⟩
    · rw [hlab fd x hx]; trivial
    · have low : ∀ fd : Nat, fd ≤ 2 → ∃ x, s.k.tab fd = some x ∧ x.obj = .old fd := by
        intro fd hfd
        obtain ⟨x, hx⟩ := Option.isSome_iff_exists.mp (hstd fd hfd)
        exact ⟨x, hx, hlab fd x hx⟩
      rcases List.mem_append.mp hp with hp | hp
      · simp only [std3, List.mem_cons, List.not_mem_nil, or_false] at hp
        rcases hp with rfl | rfl | rfl
        · obtain ⟨x, x1, x2⟩ := low 0 (by omega); exact ⟨by decide, ⟨x, x1, x2, by simp⟩, by simp⟩
        · obtain ⟨x, x1, x2⟩ := low 1 (by omega); exact ⟨by decide, ⟨x, x1, x2, by simp⟩, by simp⟩
        · obtain ⟨x, x1, x2⟩ := low 2 (by omega); exact ⟨by decide, ⟨x, x1, x2, by simp⟩, by simp⟩
      · obtain ⟨y, hy, rfl⟩ := mem_natE.mp hp
        obtain ⟨x, hx⟩ := Option.isSome_iff_exists.mp (hnat y hy).2
        exact ⟨by simp, ⟨x, hx, hlab y x hx, by simp⟩, fun _ => Or.inr (by simpa using hy)⟩
    · by_cases hm : fd ∈ natives c
      · exact Or.inl ⟨.old fd, _, List.mem_append_right _ (mem_natE.mpr ⟨fd, hm, rfl⟩)⟩
      · exact Or.inr (Or.inl ⟨hm, rfl⟩)
  obtain ⟨LB, io, oo, eo, o, r, s1, hc, K1, R⟩ := ready hN (fun x hx => (hnat x hx).1) hK ⟨rfl, rfl⟩ hx
  obtain ⟨hb7, _, kids, lk, K2, len, p1, p2, p3⟩ := commands_true c.n 0 _ _ [] io s1 s' (by omega) (by omega) R.base (Or.inl ⟨rfl, R.nx⟩) (by rw [R.nx]; exact R.base.inp) K1 hc
  have hb7' := hb7
  simp only [b7, List.cons.injEq, and_true] at hb7'
  obtain ⟨w1, w2, w3, w4, w5, w6, w7⟩ := hb7'
  -- the descriptors that are closed at the end
  have closed : ∀ (t : Tab) (v w : Int), v = w → w ≤ 2 ∨ cleanTab t v w.toNat = none := by
    rintro t v w rfl
    by_cases h : v ≤ 2
    · exact Or.inl h
    · right; simp [cleanTab, show 2 < v by omega, setTab]
  have still : ∀ (t : Tab) (v w : Int), t w.toNat = none → cleanTab t v w.toNat = none := by
    intro t v w h
    simp only [cleanTab]
    split
    · simp only [setTab]; split <;> simp [h]
    · exact h
  have stay : ∀ (L : List (Int × Obj × Bool)) (v : Int) (p : Int × Obj × Bool), p ∈ L → p.1 ≤ 2 ∨ p.1 ≠ v → p ∈ L.filter (fun p => decide (p.1 ≤ 2 ∨ p.1 ≠ v)) := by
    intro L v p hp h; simp [List.mem_filter, hp]; omega
  have sub : ∀ (L : List (Int × Obj × Bool)) (v : Int) (p : Int × Obj × Bool), p ∈ L.filter (fun p => decide (p.1 ≤ 2 ∨ p.1 ≠ v)) → p ∈ L ∧ (p.1 ≤ 2 ∨ p.1 ≠ v) := by
    intro L v p hp; simp [List.mem_filter] at hp; omega
  obtain ⟨b1, ho⟩ := R.base.out
  obtain ⟨b2, hr⟩ := R.base.err
  have J0 := K2.jt.drop (v := s1.std0) (by
    rcases R.base.inp with ⟨h, _⟩ | ⟨x, b, _, h, _⟩
    · left; omega
    · exact Or.inr (Or.inr ⟨x, b, h⟩))
  have J1 := J0.drop (v := s1.std1) (by
    by_cases e : s1.std0 = s1.std1
    · rcases closed s'.k.tab _ _ e with h | h
      · exact Or.inl h
      · exact Or.inr (Or.inl h)
    · exact Or.inr (Or.inr ⟨_, _, stay _ _ _ ho (Or.inr fun h => e h.symm)⟩))
  have J2 := J1.drop (v := s1.std2) (by
    by_cases e : s1.std0 = s1.std2
    · rcases closed s'.k.tab _ _ e with h | h
      · exact Or.inl h
      · exact Or.inr (Or.inl (still _ _ _ h))
    · by_cases e' : s1.std1 = s1.std2
      · rcases closed (cleanTab s'.k.tab s1.std0) _ _ e' with h | h
        · exact Or.inl h
        · exact Or.inr (Or.inl h)
      · exact Or.inr (Or.inr ⟨_, _, stay _ _ _ (stay _ _ _ hr (Or.inr fun h => e h.symm)) (Or.inr fun h => e' h.symm)⟩))
  have ht : (finish s').k.tab = cleanTab (cleanTab (cleanTab s'.k.tab s1.std0) s1.std1) s1.std2 := by
    rw [← w5, ← w6, ← w7]; rfl
  have keep : ∀ (v : Int) (x : Obj), (v, x, true) ∈ LB → io ≠ some x → oo ≠ x → eo ≠ x → 2 < v → Has (finish s') v x := by
    intro v x hv n0 n1 n2 h2
    have nn : ∀ (w : Int) (y : Obj) (b : Bool), (w, y, b) ∈ LB → y ≠ x → v ≠ w := by
      intro w y b hw hy e
      exact K2.jt.ne hv hw (fun h => hy h.symm) (by rw [e])
    have m2 := stay _ s1.std2 _ (stay _ s1.std1 _ (stay _ s1.std0 _ hv (Or.inr (by
      rcases R.base.inp with ⟨h, _⟩ | ⟨y, b, hy, h, _⟩
      · simp only; omega
      · exact nn _ y b h (fun e => n0 (by rw [hy, e]))))) (Or.inr (nn _ oo b1 ho n1))) (Or.inr (nn _ eo b2 hr n2))
    obtain ⟨_, ⟨z, z1, z2, z3⟩, _⟩ := J2.held _ m2
    exact ⟨h2, z, by rw [ht]; exact z1, z2, z3 rfl⟩
  have big : ∀ (v : Int) (id : Nat), ((v, Obj.pipeR id, true) ∈ LB ∨ (v, Obj.pipeW id, true) ∈ LB) → 2 < v := by
    intro v id hv
    refine Int.not_le.mp fun hle => ?_
    have go : ∀ x : Obj, (v, x, true) ∈ LB → (∀ y, x ≠ .old y) → False := by
      intro x hv hx
      have h0' := (K2.jt.held _ hv).1
      simp only at h0'
      have : v = 0 ∨ v = 1 ∨ v = 2 := by omega
      rcases this with rfl | rfl | rfl
      · exact K2.jt.ne hv R.base.std3.1 (hx _) rfl
      · exact K2.jt.ne hv R.base.std3.2.1 (hx _) rfl
      · exact K2.jt.ne hv R.base.std3.2.2 (hx _) rfl
    rcases hv with hv | hv
    · exact go _ hv (by simp)
    · exact go _ hv (by simp)
  have inR : ∀ id, io ≠ some (.pipeR id) ∧ io ≠ some (.pipeW id) := by
    intro id
    have := R.inp
    cases hs : c.sin <;> rw [hs] at this <;> simp only [InSpec] at this
    · simp [this]
    · obtain ⟨f, hf⟩ := this; simp [hf]
    · simp [this]
    · simp [this]
  have outR : ∀ (sh m : Nat) (w : Out) (x : Obj), OutSpec sh m w x → (∀ id, x ≠ .pipeR id) ∧ ∀ id, id ≠ m → x ≠ .pipeW id := by
    intro sh m w x h
    cases w <;> simp only [OutSpec] at h
    · subst h; exact ⟨by simp, fun id hid e => by simp at e; omega⟩
    · obtain ⟨f, _, rfl⟩ := h; simp
    · subst h; simp
    · subst h; simp
  refine ⟨io, oo, eo, o, r, lk, kids, R.inp, R.out, R.err, R.lt, ?_, ?_, K2.ch, len, ?_, ?_, ?_, ?_, ?_⟩
  · intro j hj; exact p1 j (by omega) hj (s1.rErr, .pipeR r, true) R.re
  · intro j j' h1 h2; exact p2 j j' (by omega) h1 h2
  · intro j hj
    obtain ⟨tab, t1, t2⟩ := p3 j hj
    refine ⟨tab, by simpa using t1, ?_⟩
    simp only [Nat.zero_add] at t2
    have : errObj c oo eo (outObj c oo lk j) s1.std1 = errTo c oo eo (outObj c oo lk j) := by
      simp only [errObj, errTo, R.sh]
    rw [← this]
    exact t2
  · show Has _ s'.rOut _
    rw [w1]
    exact keep _ _ R.ro (inR o).1 ((outR _ _ _ _ R.out).1 o) ((outR _ _ _ _ R.err).1 o) (big _ o (Or.inl R.ro))
  · show Has _ s'.rErr _
    rw [w2]
    exact keep _ _ R.re (inR r).1 ((outR _ _ _ _ R.out).1 r) ((outR _ _ _ _ R.err).1 r) (big _ r (Or.inl R.re))
  · intro hd
    obtain ⟨q, q1, q2, q3⟩ := R.sg hd
    refine ⟨q, q1, ?_, ?_⟩
    · show Has _ s'.rSig _
      rw [w3]
      exact keep _ _ q2 (inR q).1 ((outR _ _ _ _ R.out).1 q) ((outR _ _ _ _ R.err).1 q) (big _ q (Or.inl q2))
    · show Has _ s'.sig _
      rw [w4]
      have := R.lt
      exact keep _ _ q3 (inR q).2 ((outR _ _ _ _ R.out).2 q (by omega)) ((outR _ _ _ _ R.err).2 q (by omega)) (big _ q (Or.inr q3))
  · intro fd hfd hnn hv
    have hv : (fd : Int) ∉ [s'.rOut, s'.rErr, s'.rSig, s'.sig] := hv
    rw [w1, w2, w3, w4] at hv
    simp only [List.mem_cons, List.not_mem_nil, or_false, not_or] at hv
    rw [ht]
    rcases J2.cl fd hfd with ⟨x, b, hm⟩ | ⟨_, h⟩ | ⟨h, _⟩
    · exfalso
      obtain ⟨hm, m2⟩ := sub _ _ _ hm
      obtain ⟨hm, m1⟩ := sub _ _ _ hm
      obtain ⟨hm, m0⟩ := sub _ _ _ hm
      simp only at m0 m1 m2
      rcases R.all _ hm with h | h | h
      · simp only at h; omega
      · exact hnn (by simpa using h)
      · simp only [b7, List.mem_cons, List.not_mem_nil, or_false] at h
        omega
    · exact h
    · exact absurd h hnn

end Vital.Proc.Exec
