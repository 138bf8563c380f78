import Verif.Proc.Exec
import Mathlib.Tactic.Tauto
/-
  Proofs about kwsysProcess_Execute: what a failed call leaves behind (C203, C205).
-/
namespace Vital.Proc.Exec

/-! ### Triples -/

def Tr (P : S → Prop) (f : Act) (Q E : S → Prop) : Prop := ∀ s, P s → ((f s).1 = true → Q (f s).2) ∧ ((f s).1 = false → E (f s).2)

theorem Tr.seq {P Q R E : S → Prop} {f g : Act} (h1 : Tr P f Q E) (h2 : Tr Q g R E) : Tr P (f &> g) R E := by
  intro s hs
  have := h1 s hs
  simp only [Act.seq]
  rcases hf : f s with ⟨_ | _, s'⟩
  · simp only [hf] at this ⊢
    exact ⟨fun h => by simp at h, fun _ => this.2 trivial⟩
  · simp only [hf] at this ⊢
    exact h2 s' (this.1 trivial)

theorem Tr.orElse {P Q E E' : S → Prop} {f g : Act} (h1 : Tr P f Q E') (h2 : ∀ s, E' s → E (g s).2) : Tr P (orElse f g) Q E := by
  intro s hs
  have := h1 s hs
  simp only [Exec.orElse]
  rcases hf : f s with ⟨_ | _, s'⟩
  · simp only [hf] at this ⊢
    exact ⟨fun h => by simp at h, fun _ => h2 s' (this.2 trivial)⟩
  · simp only [hf] at this ⊢
    exact ⟨fun _ => this.1 trivial, fun h => by simp at h⟩

theorem Tr.upd {P Q E : S → Prop} {u : S → S} (h : ∀ s, P s → Q (u s)) : Tr P (upd u) Q E :=
  fun s hs => ⟨fun _ => h s hs, fun hf => by simp [Exec.upd] at hf⟩

theorem Tr.pre {P P' Q E : S → Prop} {f : Act} (h : Tr P f Q E) (hp : ∀ s, P' s → P s) : Tr P' f Q E := fun s hs => h s (hp s hs)

theorem Tr.post {P Q Q' E E' : S → Prop} {f : Act} (h : Tr P f Q E) (hq : ∀ s, Q s → Q' s) (he : ∀ s, E s → E' s) : Tr P f Q' E' :=
  fun s hs => ⟨fun h1 => hq _ ((h s hs).1 h1), fun h1 => he _ ((h s hs).2 h1)⟩

/-! ### The table of descriptors -/

/-- Compared with `t0`, only the descriptors in `vs` are new (descriptors in `N` are not considered). -/
def Good (t0 : Tab) (N : List Nat) (vs : List Int) (t : Tab) : Prop :=
  (∀ fd, fd ∉ N → (fd ≤ 2 ∨ (fd : Int) ∉ vs) → t fd = t0 fd) ∧ (∀ fd, fd ∉ N → 2 < fd → (fd : Int) ∈ vs → t0 fd = none)

theorem Good.sub {t0 : Tab} {N : List Nat} {vs vs' : List Int} {t : Tab} (h : Good t0 N vs t) (h1 : ∀ x ∈ vs, x ≤ 2 ∨ x.toNat ∈ N ∨ x ∈ vs')
    (h2 : ∀ x ∈ vs', x ≤ 2 ∨ x.toNat ∈ N ∨ x ∈ vs) : Good t0 N vs' t := by
  refine ⟨fun fd hn hv => h.1 fd hn ?_, fun fd hn h3 hv => h.2 fd hn h3 ?_⟩
  · rcases hv with hv | hv
    · exact Or.inl hv
    · by_cases hm : (fd : Int) ∈ vs
      · rcases h1 _ hm with h | h | h
        · exact Or.inl (by omega)
        · exact absurd (by simpa using h) hn
        · exact absurd h hv
      · exact Or.inr hm
  · rcases h2 _ hv with h | h | h
    · omega
    · exact absurd (by simpa using h) hn
    · exact h

theorem Good.clean {t0 : Tab} {N : List Nat} {x : Int} {vs : List Int} {t : Tab} (h : Good t0 N (x :: vs) t) : Good t0 N (cleanVal x :: vs) (cleanTab t x) := by
  simp only [cleanTab, cleanVal]
  split
  · next hx =>
    refine ⟨fun fd hn hv => ?_, fun fd hn h3 hv => h.2 fd hn h3 ?_⟩
    · simp only [setTab]
      split
      · next e =>
        rcases hv with hv | hv
        · omega
        · exact (h.2 fd hn (by omega) (by rw [List.mem_cons]; left; omega)).symm
      · next e =>
        refine h.1 fd hn (hv.imp id fun hv => ?_)
        rw [List.mem_cons, not_or] at hv ⊢
        exact ⟨by omega, hv.2⟩
    · rw [List.mem_cons] at hv ⊢
      rcases hv with hv | hv
      · omega
      · exact Or.inr hv
  · exact h

theorem Good.clean' {t0 : Tab} {N : List Nat} {x : Int} {vs : List Int} {t : Tab} (h : Good t0 N (x :: vs) t) : Good t0 N vs (cleanTab t x) := by
  refine h.clean.sub (fun y hy => ?_) (fun y hy => Or.inr (Or.inr (List.mem_cons_of_mem _ hy)))
  rcases List.mem_cons.mp hy with rfl | hy
  · left; simp only [cleanVal]; split <;> omega
  · exact Or.inr (Or.inr hy)

theorem free_none {l : Nat} {t : Tab} {a : Nat} (h : free l t = some a) : t a = none := by
  have := List.find?_some h
  simpa using this

/-- the standard descriptors are open -/
def Std (t0 : Tab) (N : List Nat) : Prop := ∀ fd, fd ≤ 2 → (t0 fd).isSome = true ∧ fd ∉ N

theorem Good.alloc {t0 : Tab} {N : List Nat} {vs : List Int} {t : Tab} {a : Nat} (h : Good t0 N vs t) (hs : Std t0 N) (ha : t a = none) (e : Fd) :
    Good t0 N (a :: vs) (setTab t a (some e)) ∧ 2 < a := by
  have h2 : 2 < a := by
    refine Nat.lt_of_not_le fun hle => ?_
    have := h.1 a (hs a hle).2 (Or.inl hle)
    have h3 := (hs a hle).1
    rw [← this, ha] at h3; cases h3
  refine ⟨⟨fun fd hn hv => ?_, fun fd hn h3 hv => ?_⟩, h2⟩
  · simp only [setTab]
    split
    · next e => subst e; rcases hv with hv | hv
                · omega
                · simp at hv
    · exact h.1 fd hn (hv.imp id fun hv hm => hv (List.mem_cons_of_mem _ hm))
  · rcases List.mem_cons.mp hv with hv | hv
    · have : fd = a := by omega
      subst this
      by_cases hm : (fd : Int) ∈ vs
      · exact h.2 fd hn h3 hm
      · rw [← h.1 fd hn (Or.inr hm)]; exact ha
    · exact h.2 fd hn h3 hv

theorem Good.flag {t0 : Tab} {N : List Nat} {vs : List Int} {t : Tab} {x : Int} (h : Good t0 N vs t) (hx : 0 ≤ x) (hv : x.toNat ∈ N ∨ (2 < x ∧ x ∈ vs)) (e : Fd) : Good t0 N vs (setTab t x.toNat (some e)) := by
  refine ⟨fun fd hn hf => ?_, h.2⟩
  simp only [setTab]
  split
  · next e =>
    subst e
    rcases hv with hv | ⟨h1, h2⟩
    · exact absurd hv hn
    · rcases hf with hf | hf
      · omega
      · exact absurd h2 (by rwa [Int.toNat_of_nonneg hx] at hf)
  · exact h.1 fd hn hf

/-! ### The invariant -/

/-- The rest of the state. -/
structure Core where
  limit : Nat
  nextPid : Nat
  forkFails : List Bool
  getcwdOk : Bool
  backOk : Bool
  cwd : Str
  masked : Bool
  children : List Child
  signalled : List Int
  waited : List Int
  listed : Bool
  ub : Bool
  forkPids : List Int
  realCwd : Option (Option Str)
  state : State

def core (s : S) : Core :=
  ⟨s.k.limit, s.k.nextPid, s.k.forkFails, s.k.getcwdOk, s.k.backOk, s.k.cwd, s.k.masked, s.k.children, s.k.signalled, s.k.waited, s.k.listed, s.k.ub, s.forkPids, s.realCwd, s.state⟩

/-- What was there before the call, the descriptors handed over by the caller, and whether `fcntl` is known to work. -/
structure Env where
  t0 : Tab
  N : List Nat
  noFail : Prop
  forkOk : Prop
  n : Nat
  wd : Option Str
  cwd0 : Str
  masked0 : Bool
  children0 : List Child
  signalled0 : List Int
  waited0 : List Int
  getcwdOk : Bool
  backOk : Bool

structure I (e : Env) (vs : S → List Int) (X : S → Prop) (Φ : Core → Prop) (s : S) : Prop where
  good : Good e.t0 e.N (vs s) s.k.tab
  ctl : e.noFail → ∀ b ∈ s.k.ctl, b = false
  ext : X s
  core : Φ (core s)

/-- A list of variables, and what is known of the variables. -/
def Vars (vs : S → List Int) (X : S → Prop) : Prop := ∀ s k, vs { s with k := k } = vs s ∧ (X s → X { s with k := k })

theorem pop_k (k : K) : (pop k).2.tab = k.tab ∧ (pop k).2.ctl = k.ctl ∧ (pop k).2.nextId = k.nextId ∧ ∀ s : S, core { s with k := (pop k).2 } = core { s with k := k } := by
  simp only [pop]
  split
  · exact ⟨rfl, rfl, rfl, fun _ => rfl⟩
  · exact ⟨rfl, rfl, rfl, fun _ => rfl⟩

theorem popCtl_k (k : K) : (popCtl k).2.tab = k.tab ∧ ((∀ b ∈ k.ctl, b = false) → (popCtl k).1 = true ∧ ∀ b ∈ (popCtl k).2.ctl, b = false) ∧
    ∀ s : S, core { s with k := (popCtl k).2 } = core { s with k := k } := by
  simp only [popCtl]
  split
  · next h => exact ⟨rfl, fun hh => ⟨rfl, hh⟩, fun _ => rfl⟩
  · next b r h =>
    refine ⟨rfl, fun hh => ?_, fun _ => rfl⟩
    rw [h] at hh
    exact ⟨by simp [hh b (by simp)], fun b hb => hh b (by simp [hb])⟩

theorem ctl_I {e : Env} {vs : S → List Int} {X : S → Prop} {Φ : Core → Prop} (hvs : Vars vs X) {v : S → Int} (f : Fd → Fd)
    (hv : ∀ s, X s → (v s).toNat ∈ e.N ∨ (2 < v s ∧ v s ∈ vs s)) : Tr (I e vs X Φ) (doCtl v f) (I e vs X Φ) (I e vs X Φ) := by
  have main : ∀ s, I e vs X Φ s → I e vs X Φ (doCtl v f s).2 := by
    intro s h
    obtain ⟨p1, p2, p3⟩ := popCtl_k s.k
    have key : ∀ k : K, k = (popCtl s.k).2 → I e vs X Φ { s with k := k } := by
      rintro k rfl
      refine ⟨?_, fun hn => (p2 (h.ctl hn)).2, (hvs s _).2 h.ext, (p3 s) ▸ h.core⟩
      rw [(hvs s _).1]; simp only [p1]; exact h.good
    simp only [doCtl, fcntl]
    split
    · next k hk => exact key k (by rw [hk])
    · next k hk =>
      have h' := key k (by rw [hk])
      split
      · exact h'
      · next h0 =>
        split
        · exact h'
        · next x hx =>
          have hg := h'.good
          refine ⟨?_, h'.ctl, (hvs s _).2 h.ext, h'.core⟩
          rw [(hvs s _).1] at hg ⊢
          exact hg.flag (by omega) (hv s h.ext) (f x)
  exact fun s h => ⟨fun _ => main s h, fun _ => main s h⟩

theorem pipe_k {e : Env} {vs : S → List Int} {X : S → Prop} {Φ : Core → Prop} (hs : Std e.t0 e.N) (hvs : Vars vs X) {s : S} (h : I e vs X Φ s) :
    (∀ k, mkPipe s.k = (none, k) → I e vs X Φ { s with k := k }) ∧
    (∀ a b k, mkPipe s.k = (some (a, b), k) → Good e.t0 e.N (a :: b :: vs s) k.tab ∧ (e.noFail → ∀ b ∈ k.ctl, b = false) ∧ Φ (core { s with k := k }) ∧ 2 < a ∧ 2 < b ∧ a ≠ b) := by
  obtain ⟨p1, p2, _, p3⟩ := pop_k s.k
  have h' : I e vs X Φ { s with k := (pop s.k).2 } := by
    refine ⟨?_, fun hn => by simp only [p2]; exact h.ctl hn, (hvs s _).2 h.ext, (p3 s) ▸ h.core⟩
    rw [(hvs s _).1]; simp only [p1]; exact h.good
  simp only [mkPipe]
  split
  · next k hk => rw [hk] at h'; simp only [Prod.mk.injEq]; exact ⟨fun _ e => by rw [← e.2]; exact h', fun _ _ _ e => by simp at e⟩
  · next k hk =>
    rw [hk] at h'
    split
    · simp only [Prod.mk.injEq]; exact ⟨fun _ e => by rw [← e.2]; exact h', fun _ _ _ e => by simp at e⟩
    · next a ha =>
      split
      · simp only [Prod.mk.injEq]; exact ⟨fun _ e => by rw [← e.2]; exact h', fun _ _ _ e => by simp at e⟩
      · next b hb =>
        refine ⟨fun _ e => by simp at e, fun a' b' k' ek => ?_⟩
        simp only [Prod.mk.injEq, Option.some.injEq] at ek
        obtain ⟨⟨rfl, rfl⟩, rfl⟩ := ek
        have hg := h'.good
        rw [(hvs s _).1] at hg
        obtain ⟨g1, l1⟩ := hg.alloc hs (free_none ha) ⟨.pipeR k.nextId, false, false⟩
        have hb' := free_none hb
        obtain ⟨g2, l2⟩ := g1.alloc hs hb' ⟨.pipeW k.nextId, false, false⟩
        refine ⟨g2.sub ?_ ?_, h'.ctl, h'.core, l1, l2, ?_⟩
        · intro x hx; right; right; simp only [List.mem_cons] at hx ⊢; tauto
        · intro x hx; right; right; simp only [List.mem_cons] at hx ⊢; tauto
        · rintro rfl; simp [setTab] at hb'

theorem pipe_I {e : Env} {vs vs' : S → List Int} {X X' : S → Prop} {Φ : Core → Prop} (hs : Std e.t0 e.N) (hvs : Vars vs X) {put : Nat → Nat → S → S}
    (hp : ∀ (a b : Nat) (s : S), X s → 2 < a → 2 < b → X' (put a b s) ∧ (put a b s).k = s.k ∧ core (put a b s) = core s ∧
      (∀ x ∈ vs s, x ≤ 2 ∨ x.toNat ∈ e.N ∨ x ∈ vs' (put a b s)) ∧ (a : Int) ∈ vs' (put a b s) ∧ (b : Int) ∈ vs' (put a b s) ∧
      (∀ x ∈ vs' (put a b s), x ≤ 2 ∨ x.toNat ∈ e.N ∨ x = a ∨ x = b ∨ x ∈ vs s)) :
    Tr (I e vs X Φ) (doPipe put) (I e vs' X' Φ) (I e vs X Φ) := by
  intro s h
  obtain ⟨h1, h2⟩ := pipe_k hs hvs h
  simp only [doPipe]
  split
  · next k hk => exact ⟨fun hh => by simp at hh, fun _ => h1 k hk⟩
  · next a b k hk =>
    refine ⟨fun _ => ?_, fun hh => by simp at hh⟩
    obtain ⟨g, hc, hco, l1, l2, _⟩ := h2 a b k hk
    obtain ⟨p1, p2, p3, p4, p5, p6, p7⟩ := hp a b { s with k := k } ((hvs s k).2 h.ext) l1 l2
    rw [(hvs s k).1] at p4 p7
    refine ⟨?_, by rw [p2]; exact hc, p1, p3 ▸ hco⟩
    rw [p2]
    refine g.sub ?_ ?_
    · intro x hx
      rcases List.mem_cons.mp hx with rfl | hx
      · exact Or.inr (Or.inr p5)
      · rcases List.mem_cons.mp hx with rfl | hx
        · exact Or.inr (Or.inr p6)
        · exact p4 x hx
    · intro x hx
      rcases p7 x hx with h | h | h | h | h
      · exact Or.inl h
      · exact Or.inr (Or.inl h)
      all_goals (right; right; simp [h])

theorem open_k {e : Env} {vs : S → List Int} {X : S → Prop} {Φ : Core → Prop} (hs : Std e.t0 e.N) (hvs : Vars vs X) {s : S} (h : I e vs X Φ s) (name : Str) (w : Bool) :
    (∀ k, openFile s.k name w = (none, k) → I e vs X Φ { s with k := k }) ∧
    (∀ a k, openFile s.k name w = (some a, k) → Good e.t0 e.N (a :: vs s) k.tab ∧ (e.noFail → ∀ b ∈ k.ctl, b = false) ∧ Φ (core { s with k := k }) ∧ 2 < a) := by
  obtain ⟨p1, p2, _, p3⟩ := pop_k s.k
  have h' : I e vs X Φ { s with k := (pop s.k).2 } := by
    refine ⟨?_, fun hn => by simp only [p2]; exact h.ctl hn, (hvs s _).2 h.ext, (p3 s) ▸ h.core⟩
    rw [(hvs s _).1]; simp only [p1]; exact h.good
  simp only [openFile]
  split
  · next k hk => rw [hk] at h'; simp only [Prod.mk.injEq]; exact ⟨fun _ e => by rw [← e.2]; exact h', fun _ _ e => by simp at e⟩
  · next k hk =>
    rw [hk] at h'
    split
    · simp only [Prod.mk.injEq]; exact ⟨fun _ e => by rw [← e.2]; exact h', fun _ _ e => by simp at e⟩
    · next a ha =>
      refine ⟨fun _ e => by simp at e, fun a' k' ek => ?_⟩
      simp only [Prod.mk.injEq, Option.some.injEq] at ek
      obtain ⟨rfl, rfl⟩ := ek
      have hg := h'.good
      rw [(hvs s _).1] at hg
      obtain ⟨g1, l1⟩ := hg.alloc hs (free_none ha) ⟨.file k.nextId name w, false, false⟩
      exact ⟨g1, h'.ctl, h'.core, l1⟩

theorem call_I {e : Env} {vs : S → List Int} {X : S → Prop} {Φ : Core → Prop} (hvs : Vars vs X) : Tr (I e vs X Φ) call (I e vs X Φ) (I e vs X Φ) := by
  have main : ∀ s, I e vs X Φ s → I e vs X Φ (call s).2 := by
    intro s h
    obtain ⟨p1, p2, _, p3⟩ := pop_k s.k
    refine ⟨?_, fun hn => by simp only [call, p2]; exact h.ctl hn, (hvs s _).2 h.ext, (p3 s) ▸ h.core⟩
    simp only [call]
    rw [(hvs s _).1]; simp only [p1]; exact h.good
  exact fun s h => ⟨fun _ => main s h, fun _ => main s h⟩

theorem I.mono {e : Env} {vs vs' : S → List Int} {X X' : S → Prop} {Φ Φ' : Core → Prop} {s : S} (h : I e vs X Φ s) (h1 : ∀ x ∈ vs s, x ≤ 2 ∨ x.toNat ∈ e.N ∨ x ∈ vs' s)
    (h2 : ∀ x ∈ vs' s, x ≤ 2 ∨ x.toNat ∈ e.N ∨ x ∈ vs s) (h3 : X s → X' s) (h4 : ∀ κ, Φ κ → Φ' κ) : I e vs' X' Φ' s :=
  ⟨h.good.sub h1 h2, h.ctl, h3 h.ext, h4 _ h.core⟩

/-- cleaning a variable -/
theorem clean_I {e : Env} {vs vs' : S → List Int} {X X' : S → Prop} {Φ : Core → Prop} {s s' : S} {x : Int} (h : I e vs X Φ s) (ht : s'.k.tab = cleanTab s.k.tab x)
    (h1 : ∀ y ∈ vs s, y ≤ 2 ∨ y.toNat ∈ e.N ∨ y = x ∨ y ∈ vs' s') (h2 : ∀ y ∈ vs' s', y ≤ 2 ∨ y.toNat ∈ e.N ∨ y ∈ vs s) (hx : x ≤ 2 ∨ x.toNat ∈ e.N ∨ x ∈ vs s)
    (hc : s'.k.ctl = s.k.ctl) (h3 : X s → X' s') (hco : core s' = core s) : I e vs' X' Φ s' := by
  refine ⟨?_, by rw [hc]; exact h.ctl, h3 h.ext, by rw [hco]; exact h.core⟩
  rw [ht]
  refine Good.clean' (h.good.sub ?_ ?_)
  · intro y hy
    rcases h1 y hy with h | h | h | h
    · exact Or.inl h
    · exact Or.inr (Or.inl h)
    · exact Or.inr (Or.inr (by simp [h]))
    · exact Or.inr (Or.inr (by simp [h]))
  · intro y hy
    rcases List.mem_cons.mp hy with rfl | hy
    · exact hx
    · exact h2 y hy

theorem clean1 {e : Env} {vs : S → List Int} {v : S → Int} {X X' : S → Prop} {Φ : Core → Prop} {s s' : S} (h : I e (fun s => v s :: vs s) X Φ s) (ht : s'.k.tab = cleanTab s.k.tab (v s))
    (hvs : vs s' = vs s) (hc : s'.k.ctl = s.k.ctl) (hco : core s' = core s) (hX : X s → X' s') : I e vs X' Φ s' :=
  ⟨by rw [ht, hvs]; exact h.good.clean', by rw [hc]; exact h.ctl, hX h.ext, by rw [hco]; exact h.core⟩

theorem cleanVal_le (v : Int) : cleanVal v ≤ 2 := by simp only [cleanVal]; split <;> omega

theorem I.perm {e : Env} {vs : S → List Int} (vs' : S → List Int) {X : S → Prop} {Φ : Core → Prop} {s : S} (h : I e vs X Φ s) (h1 : ∀ x, x ∈ vs s ↔ x ∈ vs' s) : I e vs' X Φ s :=
  ⟨h.good.sub (fun x hx => Or.inr (Or.inr ((h1 x).mp hx))) (fun x hx => Or.inr (Or.inr ((h1 x).mpr hx))), h.ctl, h.ext, h.core⟩

/-! ### The processes -/

def newPids (e : Env) (κ : Core) : List Int := (κ.children.drop e.children0.length).map (fun c => (c.pid : Int))

structure Common (e : Env) (κ : Core) : Prop where
  ch : e.children0 <+: κ.children
  nextPos : 0 < κ.nextPid
  pos : ∀ x ∈ newPids e κ, 0 < x
  fk : e.forkOk → ∀ b ∈ κ.forkFails, b = false
  sg : κ.signalled = e.signalled0
  wt : κ.waited = e.waited0
  ub : κ.ub = false
  back : κ.backOk = e.backOk
  gc : κ.getcwdOk = e.getcwdOk
  dir : (e.wd = none ∧ κ.realCwd = none ∧ κ.cwd = e.cwd0) ∨ (e.wd.isSome = true ∧ e.getcwdOk = true ∧ κ.realCwd = some (some e.cwd0)) ∨
    (e.wd.isSome = true ∧ e.getcwdOk = false ∧ κ.realCwd = some none ∧ κ.cwd = e.cwd0)

/-- before command `i` -/
structure At (e : Env) (i : Nat) (m : Bool) (κ : Core) : Prop where
  common : Common e κ
  pids : κ.forkPids = newPids e κ ++ List.replicate (e.n - i) 0
  len : (newPids e κ).length = i
  mask : κ.masked = m
  st : κ.state = .starting

/-- after a failure -/
structure Fail (e : Env) (κ : Core) : Prop where
  common : Common e κ
  pids : ∃ j, κ.forkPids = newPids e κ ++ List.replicate j 0 ∨ (¬ e.forkOk ∧ κ.forkPids = newPids e κ ++ -1 :: List.replicate j 0)
  mask : κ.masked = e.masked0

theorem At.fail {e : Env} {i : Nat} {κ : Core} (h : At e i e.masked0 κ) : Fail e κ := ⟨h.common, ⟨_, Or.inl h.pids⟩, h.mask⟩

/-! ### One command -/

def base (s : S) : List Int := [s.rOut, s.rErr, s.rSig, s.sig, s.std0, s.std1, s.std2]
def loc (s : S) : List Int := s.next :: s.sIn :: s.sOut :: s.sErr :: base s
def locE (s : S) : List Int := s.e0 :: s.e1 :: loc s
def locEG (s : S) : List Int := s.g0 :: s.g1 :: locE s
def none' (_ : S) : Prop := True
def errOk (s : S) : Prop := s.sErr = s.std1 ∨ s.sErr = s.std2
def small (s : S) : Prop := s.e0 ≤ 2 ∧ s.e1 ≤ 2 ∧ errOk s
def small1 (s : S) : Prop := s.e1 ≤ 2 ∧ errOk s
def big (s : S) : Prop := 2 < s.e1 ∧ 2 < s.g1 ∧ errOk s
def bigE (s : S) : Prop := 2 < s.e1 ∧ errOk s

theorem vars_loc : Vars loc small := fun _ _ => ⟨rfl, fun h => h⟩
theorem vars_locEG : Vars locEG errOk := fun _ _ => ⟨rfl, fun h => h⟩
theorem vars_big : Vars locEG big := fun _ _ => ⟨rfl, fun h => h⟩
theorem vars_bigE : Vars locE bigE := fun _ _ => ⟨rfl, fun h => h⟩

theorem clE_I {e : Env} {Φ : Core → Prop} {s : S} {X : S → Prop} (h : I e locE X Φ s) (hX : X s → errOk s) : I e loc small Φ (clE s) := by
  have h1 : I e (fun s => s.e1 :: loc s) (fun s => s.e0 ≤ 2 ∧ errOk s) Φ (clE0 s) := clean1 (v := S.e0) h rfl rfl rfl rfl (fun h => ⟨cleanVal_le _, hX h⟩)
  exact clean1 (v := S.e1) h1 rfl rfl rfl rfl (fun h => ⟨h.1, cleanVal_le _, h.2⟩)

theorem clEG_I {e : Env} {Φ : Core → Prop} {s : S} {X : S → Prop} (h : I e locEG X Φ s) (hX : X s → errOk s) : I e loc small Φ (clEG s) := by
  have h0 : I e (fun s => s.e0 :: s.e1 :: s.g0 :: s.g1 :: loc s) X Φ s := h.perm _ (by intro x; simp only [locEG, locE, List.mem_cons]; tauto)
  have h1 : I e (fun s => s.e1 :: s.g0 :: s.g1 :: loc s) (fun s => s.e0 ≤ 2 ∧ errOk s) Φ (clE0 s) := clean1 (v := S.e0) h0 rfl rfl rfl rfl (fun h => ⟨cleanVal_le _, hX h⟩)
  have h2 : I e (fun s => s.g0 :: s.g1 :: loc s) small Φ (clE s) := clean1 (v := S.e1) h1 rfl rfl rfl rfl (fun h => ⟨h.1, cleanVal_le _, h.2⟩)
  have h3 : I e (fun s => s.g1 :: loc s) small Φ (clG0 (clE s)) := clean1 (v := S.g0) h2 rfl rfl rfl rfl (fun h => h)
  exact clean1 (v := S.g1) h3 rfl rfl rfl rfl (fun h => h)

theorem mask_I {e : Env} {vs : S → List Int} {X : S → Prop} {Φ Φ' : Core → Prop} (hvs : Vars vs X) (m : Bool) (h : ∀ κ, Φ κ → Φ' { κ with masked := m }) {s : S} (hi : I e vs X Φ s) :
    I e vs X Φ' { s with k := { s.k with masked := m } } :=
  ⟨by rw [(hvs s _).1]; exact hi.good, hi.ctl, (hvs s _).2 hi.ext, h _ hi.core⟩

theorem At.mask' {e : Env} {i : Nat} {m : Bool} (m' : Bool) {κ : Core} (h : At e i m κ) : At e i m' { κ with masked := m' } :=
  ⟨⟨h.common.ch, h.common.nextPos, h.common.pos, h.common.fk, h.common.sg, h.common.wt, h.common.ub, h.common.back, h.common.gc, h.common.dir⟩, h.pids, h.len, rfl, h.st⟩

/-- after a failing fork -/
structure ForkFail (e : Env) (κ : Core) : Prop where
  common : Common e κ
  pids : ∃ j, (¬ e.forkOk ∧ κ.forkPids = newPids e κ ++ -1 :: List.replicate j 0)

theorem ForkFail.fail {e : Env} {κ : Core} (h : ForkFail e κ) : Fail e { κ with masked := e.masked0 } :=
  ⟨⟨h.common.ch, h.common.nextPos, h.common.pos, h.common.fk, h.common.sg, h.common.wt, h.common.ub, h.common.back, h.common.gc, h.common.dir⟩,
   h.pids.elim fun j hj => ⟨j, Or.inr hj⟩, rfl⟩

theorem fork_I {e : Env} {i : Nat} (hi : i < e.n) : Tr (I e locEG errOk (At e i true)) (fork i) (I e locEG errOk (At e (i + 1) true)) (I e locEG errOk (ForkFail e)) := by
  intro s h
  have hc := h.core
  have hcc := hc.common
  have e1 : e.n - i = (e.n - (i + 1)) + 1 := by omega
  have hset : ∀ x : Int, s.forkPids.set i x = newPids e (core s) ++ x :: List.replicate (e.n - (i + 1)) 0 := by
    intro x
    have hp : s.forkPids = newPids e (core s) ++ List.replicate (e.n - i) 0 := hc.pids
    have hl := hc.len
    rw [hp, List.set_append, if_neg (by omega), hl, Nat.sub_self, e1, List.replicate_succ, List.set_cons_zero]
  simp only [fork]
  split
  · next r hr =>
    refine ⟨fun hh => by simp at hh, fun _ => ⟨h.good, h.ctl, h.ext, ⟨⟨hcc.ch, hcc.nextPos, hcc.pos, ?_, hcc.sg, hcc.wt, hcc.ub, hcc.back, hcc.gc, hcc.dir⟩, ?_⟩⟩⟩
    · intro hf b hb
      exact hcc.fk hf b (by simp only [core, hr]; exact List.mem_cons_of_mem _ hb)
    · refine ⟨e.n - (i + 1), fun hf => ?_, hset _⟩
      have := hcc.fk hf true (by simp [core, hr])
      cases this
  · next l hl =>
    refine ⟨fun _ => ⟨h.good, h.ctl, h.ext, ?_⟩, fun hh => by simp at hh⟩
    obtain ⟨d, hd⟩ := hcc.ch
    have hd' : s.k.children = e.children0 ++ d := hd.symm
    have hnew : ∀ κ : Core, κ.children = s.k.children ++ [⟨s.k.nextPid, i, childTab s⟩] → newPids e κ = newPids e (core s) ++ [(s.k.nextPid : Int)] := by
      intro κ hk
      simp only [newPids, hk, core, hd']
      simp
    refine ⟨⟨?_, ?_, ?_, ?_, hcc.sg, hcc.wt, hcc.ub, hcc.back, hcc.gc, hcc.dir⟩, ?_, ?_, hc.mask, hc.st⟩
    · exact List.IsPrefix.trans hcc.ch (List.prefix_append _ _)
    · exact Nat.succ_pos _
    · rw [hnew _ rfl]
      intro x hx
      rcases List.mem_append.mp hx with hx | hx
      · exact hcc.pos x hx
      · have : 0 < s.k.nextPid := hcc.nextPos
        simp at hx; omega
    · intro hf b hb
      exact hcc.fk hf b (List.mem_of_mem_tail hb)
    · rw [hnew _ rfl]
      show s.forkPids.set i _ = _
      rw [hset]
      simp
    · rw [hnew _ rfl, List.length_append, hc.len]; rfl

theorem exec_I {e : Env} {vs : S → List Int} {X : S → Prop} {Φ : Core → Prop} (hvs : Vars vs X) : Tr (I e vs X Φ) execResult (I e vs X Φ) (I e vs X Φ) := by
  intro s h
  obtain ⟨p1, p2, _, p3⟩ := pop_k s.k
  have h' : I e vs X Φ { s with k := (pop s.k).2 } := by
    refine ⟨?_, fun hn => by simp only [p2]; exact h.ctl hn, (hvs s _).2 h.ext, (p3 s) ▸ h.core⟩
    rw [(hvs s _).1]; simp only [p1]; exact h.good
  simp only [execResult]
  split
  · next k hk => rw [hk] at h'; exact ⟨fun _ => h', fun hh => by simp at hh⟩
  · next k hk =>
    rw [hk] at h'
    refine ⟨fun hh => by simp at hh, fun _ => ⟨?_, h'.ctl, (hvs s _).2 h.ext, h'.core⟩⟩
    have := h'.good
    rw [(hvs s _).1] at this ⊢
    exact this

theorem I.weak {e : Env} {vs : S → List Int} {X : S → Prop} {Φ Φ' : Core → Prop} {s : S} (h : I e vs X Φ s) (h4 : ∀ κ, Φ κ → Φ' κ) : I e vs X Φ' s :=
  ⟨h.good, h.ctl, h.ext, h4 _ h.core⟩

theorem I.forget {e : Env} {vs : S → List Int} {X : S → Prop} {Φ : Core → Prop} {s : S} (h : I e vs X Φ s) : I e vs none' Φ s :=
  ⟨h.good, h.ctl, trivial, h.core⟩

theorem I.errOk {e : Env} {vs : S → List Int} {Φ : Core → Prop} {s : S} (h : I e vs big Φ s) : I e vs errOk Φ s :=
  ⟨h.good, h.ctl, h.ext.2.2, h.core⟩

theorem createFail_I {e : Env} {i : Nat} {s : S} (h : I e (fun s => s.e0 :: s.g0 :: loc s) small1 (At e (i + 1) e.masked0) s) :
    I e loc small (Fail e) (clG0 (clE0 s)) := by
  have h2 : I e (fun s => s.g0 :: loc s) small (At e (i + 1) e.masked0) (clE0 s) := clean1 (v := S.e0) h rfl rfl rfl rfl (fun h => ⟨cleanVal_le _, h.1, h.2⟩)
  have h3 : I e loc small (At e (i + 1) e.masked0) (clG0 (clE0 s)) := clean1 (v := S.g0) h2 rfl rfl rfl rfl (fun h => h)
  exact h3.weak fun κ hk => hk.fail

theorem mem_put {a b x : Int} {l : List Int} (h : x ∈ a :: b :: l) : x = a ∨ x = b ∨ x ∈ l := by simpa using h

theorem create_I {e : Env} (hs : Std e.t0 e.N) {i : Nat} (hi : i < e.n) :
    Tr (I e loc small (At e i e.masked0)) (create i) (I e loc small (At e (i + 1) e.masked0)) (I e loc small (Fail e)) := by
  intro s h
  have hm : s.k.masked = e.masked0 := h.core.mask
  revert s
  have key : ∀ m, m = e.masked0 → Tr (I e loc small (At e i e.masked0)) (doPipe (fun a b s => { s with e0 := a, e1 := b }) &>
      orElse (doPipe (fun a b s => { s with g0 := a, g1 := b })) (upd clE) &>
      orElse (doCtl S.e1 cloexecOn &> doCtl S.g1 cloexecOn) (upd clEG) &>
      block &>
      orElse (fork i) (unblock m &> upd clEG) &>
      upd clE1 &> upd clG1 &>
      orElse call (unblock m &> upd clE0 &> upd clG0) &>
      upd clG0 &>
      unblock m &>
      orElse execResult (upd clE0) &>
      upd clE0) (I e loc small (At e (i + 1) e.masked0)) (I e loc small (Fail e)) := by
    rintro m rfl
    refine Tr.seq (Q := I e locE bigE (At e i e.masked0)) ?_ (Tr.seq (Q := I e locEG big (At e i e.masked0)) ?_ (Tr.seq (Q := I e locEG errOk (At e i e.masked0)) ?_
      (Tr.seq (Q := I e locEG errOk (At e i true)) ?_ (Tr.seq (Q := I e locEG errOk (At e (i + 1) true)) ?_
      (Tr.seq (Q := I e (fun s => s.g1 :: s.e0 :: s.g0 :: loc s) small1 (At e (i + 1) true)) ?_ (Tr.seq (Q := I e (fun s => s.e0 :: s.g0 :: loc s) small1 (At e (i + 1) true)) ?_
      (Tr.seq (Q := I e (fun s => s.g0 :: s.e0 :: loc s) small1 (At e (i + 1) true)) ?_ (Tr.seq (Q := I e (fun s => s.e0 :: loc s) small1 (At e (i + 1) true)) ?_
      (Tr.seq (Q := I e (fun s => s.e0 :: loc s) small1 (At e (i + 1) e.masked0)) ?_ (Tr.seq (Q := I e (fun s => s.e0 :: loc s) small1 (At e (i + 1) e.masked0)) ?_ ?_))))))))))
    · refine (pipe_I hs vars_loc ?_).post (fun _ h => h) (fun s h => h.weak fun κ hk => hk.fail)
      intro a b s hsm ha hb
      refine ⟨⟨by simp; omega, hsm.2.2⟩, rfl, rfl, ?_, by simp [locE], by simp [locE], ?_⟩
      · intro x hx; right; right; exact List.mem_cons_of_mem _ (List.mem_cons_of_mem _ hx)
      · intro x hx; right; right; exact mem_put hx
    · refine Tr.orElse (pipe_I hs vars_bigE (X' := big) (vs' := locEG) ?_) (fun s h => (clE_I h (fun h => h.2)).weak fun κ hk => hk.fail)
      intro a b s hX ha hb
      refine ⟨⟨hX.1, by simp; omega, hX.2⟩, rfl, rfl, ?_, by simp [locEG], by simp [locEG], ?_⟩
      · intro x hx; right; right; exact List.mem_cons_of_mem _ (List.mem_cons_of_mem _ hx)
      · intro x hx; right; right; exact mem_put hx
    · refine Tr.orElse (E' := I e locEG big (At e i e.masked0)) (Tr.seq (ctl_I vars_big cloexecOn ?_) ((ctl_I vars_big cloexecOn ?_).post (fun s h => h.errOk) (fun _ h => h)))
        (fun s h => (clEG_I h (fun h => h.2.2)).weak fun κ hk => hk.fail)
      · intro s hX; exact Or.inr ⟨hX.1, by simp [locEG, locE]⟩
      · intro s hX; exact Or.inr ⟨hX.2.1, by simp [locEG, locE]⟩
    · exact Tr.upd fun s h => mask_I vars_locEG true (fun κ hk => hk.mask' true) h
    · refine Tr.orElse (fork_I hi) (fun s h => ?_)
      exact clEG_I (mask_I vars_locEG e.masked0 (fun κ hk => hk.fail) h) (fun h => h)
    · refine Tr.upd fun s h => ?_
      have h0 : I e (fun s => s.e1 :: s.g1 :: s.e0 :: s.g0 :: loc s) errOk (At e (i + 1) true) s := h.perm _ (by intro x; simp only [locEG, locE, List.mem_cons]; tauto)
      exact clean1 (v := S.e1) h0 rfl rfl rfl rfl (fun h => ⟨cleanVal_le _, h⟩)
    · exact Tr.upd fun s h => clean1 (v := S.g1) h rfl rfl rfl rfl (fun h => h)
    · have hv : Vars (fun s => s.e0 :: s.g0 :: loc s) small1 := fun _ _ => ⟨rfl, fun h => h⟩
      refine Tr.orElse ((call_I hv).post (fun s h => h.perm _ (by intro x; simp only [List.mem_cons]; tauto)) (fun _ h => h)) (fun s h => ?_)
      have h1 := mask_I (Φ' := At e (i + 1) e.masked0) hv e.masked0 (fun κ hk => hk.mask' e.masked0) h
      exact createFail_I h1
    · exact Tr.upd fun s h => clean1 (v := S.g0) h rfl rfl rfl rfl (fun h => h)
    · exact Tr.upd fun s h => mask_I (fun _ _ => ⟨rfl, fun h => h⟩) e.masked0 (fun κ hk => hk.mask' e.masked0) h
    · have hv : Vars (fun s => s.e0 :: loc s) small1 := fun _ _ => ⟨rfl, fun h => h⟩
      refine Tr.orElse (exec_I hv) (fun s h => ?_)
      exact I.weak (clean1 (v := S.e0) h rfl rfl rfl rfl (fun h => ⟨cleanVal_le _, h.1, h.2⟩)) fun κ hk => hk.fail
    · exact Tr.upd fun s h => clean1 (v := S.e0) h rfl rfl rfl rfl (fun h => ⟨cleanVal_le _, h.1, h.2⟩)
  exact fun s h hm => key s.k.masked hm s h

/-! ### The loop -/

def start (s : S) : List Int := s.next :: base s

theorem clNext_I {e : Env} {Φ : Core → Prop} {X : S → Prop} {s : S} (h : I e start X Φ s) : I e base none' Φ (clNext s) := by
  simp only [clNext]
  split
  · exact clean1 (v := S.next) h rfl rfl rfl rfl (fun _ => trivial)
  · next hn =>
    refine h.mono ?_ ?_ (fun _ => trivial) (fun _ h => h)
    · intro x hx
      rcases List.mem_cons.mp hx with rfl | hx
      · right; right
        have : s.next = s.std0 := by omega
        rw [this]; simp [base]
      · exact Or.inr (Or.inr hx)
    · intro x hx; exact Or.inr (Or.inr (List.mem_cons_of_mem _ hx))

theorem clSs_I {e : Env} {Φ : Core → Prop} {c : Cfg} {s : S} (h : I e loc small Φ s) : I e start (fun s => s.e0 ≤ 2 ∧ s.e1 ≤ 2) Φ (clSErr c (clSOut (clSIn s))) := by
  have h0 : I e (fun s => s.sIn :: s.sOut :: s.sErr :: start s) small Φ s := h.perm _ (by intro x; simp only [loc, start, List.mem_cons]; tauto)
  have h1 : I e (fun s => s.sOut :: s.sErr :: start s) small Φ (clSIn s) := by
    simp only [clSIn]
    split
    · exact clean1 (v := S.sIn) h0 rfl rfl rfl rfl (fun h => h)
    · next hn =>
      have : s.sIn = s.std0 := by omega
      exact h0.perm _ (by intro x; simp only [List.mem_cons, this, start, base]; tauto)
  generalize clSIn s = s1 at h1
  have h2 : I e (fun s => s.sErr :: start s) small Φ (clSOut s1) := by
    simp only [clSOut]
    split
    · exact clean1 (v := S.sOut) h1 rfl rfl rfl rfl (fun h => h)
    · next hn =>
      have : s1.sOut = s1.std1 := by omega
      exact h1.perm _ (by intro x; simp only [List.mem_cons, this, start, base]; tauto)
  generalize clSOut s1 = s2 at h2
  simp only [clSErr]
  split
  · exact clean1 (v := S.sErr) h2 rfl rfl rfl rfl (fun h => ⟨h.1, h.2.1⟩)
  · refine h2.mono ?_ ?_ (fun h => ⟨h.1, h.2.1⟩) (fun _ h => h)
    · intro x hx
      right; right
      rcases List.mem_cons.mp hx with rfl | hx
      · rcases h2.ext.2.2 with h | h <;> rw [h] <;> simp [start, base]
      · exact hx
    · intro x hx; exact Or.inr (Or.inr (List.mem_cons_of_mem _ hx))

/-- between two commands -/
def idle (s : S) : Prop := s.e0 ≤ 2 ∧ s.e1 ≤ 2

theorem mem_swap3 {a b c x : Int} {l : List Int} (h : x ∈ a :: b :: c :: l) : x ∈ a :: c :: b :: l := by
  simp only [List.mem_cons] at h ⊢; tauto

theorem nextPipe_I {e : Env} (hs : Std e.t0 e.N) {i : Nat} :
    Tr (I e (fun s => s.sIn :: base s) (fun s => idle s ∧ s.sIn = s.next) (At e i e.masked0)) nextPipe
      (I e (fun s => s.next :: s.sIn :: s.sOut :: base s) idle (At e i e.masked0)) (I e base none' (Fail e)) := by
  have hv : Vars (fun s => s.sIn :: base s) (fun s => idle s ∧ s.sIn = s.next) := fun _ _ => ⟨rfl, fun h => h⟩
  intro s h
  obtain ⟨h1, h2⟩ := pipe_k hs hv h
  have conv : ∀ s, I e (fun s => s.sIn :: base s) (fun s => idle s ∧ s.sIn = s.next) (At e i e.masked0) s → I e base none' (Fail e) (clNext s) := by
    intro s h
    have h' : I e start none' (Fail e) s :=
      ⟨h.good.sub (fun x hx => by right; right; simp only [start]; rw [← h.ext.2]; exact hx) (fun x hx => by right; right; simp only [start] at hx; rw [← h.ext.2] at hx; exact hx), h.ctl, trivial, h.core.fail⟩
    exact clNext_I h'
  simp only [nextPipe]
  split
  · next k hk => exact ⟨fun hh => by simp at hh, fun _ => conv _ (h1 k hk)⟩
  · next a b k hk =>
    obtain ⟨g, hc, hco, l1, l2, hab⟩ := h2 a b k hk
    -- with the two new descriptors owned
    have hi : I e (fun s => (a : Int) :: (b : Int) :: s.sIn :: base s) (fun s => idle s ∧ s.sIn = s.next) (At e i e.masked0) { s with k := k } := ⟨g, hc, h.ext, hco⟩
    have hv2 : Vars (fun s => (a : Int) :: (b : Int) :: s.sIn :: base s) (fun s => idle s ∧ s.sIn = s.next) := fun _ _ => ⟨rfl, fun h => h⟩
    have ht := Tr.seq (ctl_I (e := e) (Φ := At e i e.masked0) hv2 (v := fun _ => (a : Int)) cloexecOn (fun s _ => Or.inr ⟨by omega, by simp⟩))
      (ctl_I (e := e) (Φ := At e i e.masked0) hv2 (v := fun _ => (b : Int)) cloexecOn (fun s _ => Or.inr ⟨by omega, by simp⟩)) _ hi
    split
    · next s' hs' =>
      rw [hs'] at ht
      have h3 := ht.1 rfl
      refine ⟨fun _ => ⟨h3.good.sub ?_ ?_, h3.ctl, h3.ext.1, h3.core⟩, fun hh => by simp at hh⟩
      · intro x hx; exact Or.inr (Or.inr (mem_swap3 hx))
      · intro x hx; exact Or.inr (Or.inr (mem_swap3 hx))
    · next s' hs' =>
      rw [hs'] at ht
      have h3 := ht.2 rfl
      refine ⟨fun hh => by simp at hh, fun _ => conv _ ?_⟩
      have g3 := h3.good.clean'.clean'
      refine ⟨?_, h3.ctl, h3.ext, h3.core⟩
      have ea : (2 : Int) < a := by omega
      have eb : (2 : Int) < b := by omega
      simp only [cleanTab, if_pos ea, if_pos eb] at g3
      exact g3

theorem command_I {e : Env} (hs : Std e.t0 e.N) {c : Cfg} {i : Nat} (hi : i < e.n) :
    Tr (I e start idle (At e i e.masked0)) (command c i) (I e start idle (At e (i + 1) e.masked0)) (I e base none' (Fail e)) := by
  unfold command
  refine Tr.seq (Q := I e (fun s => s.sIn :: base s) (fun s => idle s ∧ s.sIn = s.next) (At e i e.masked0)) (Tr.upd fun s h => ⟨h.good, h.ctl, ⟨h.ext, rfl⟩, h.core⟩) ?_
  refine Tr.seq (Q := I e (fun s => s.next :: s.sIn :: s.sOut :: base s) idle (At e i e.masked0)) ?_ ?_
  · split
    · refine Tr.upd fun s h => ⟨h.good.sub ?_ ?_, h.ctl, h.ext.1, h.core⟩
      · intro x hx
        right; right
        show x ∈ -1 :: s.sIn :: s.std1 :: base s
        have hx : x ∈ s.sIn :: base s := hx
        simp only [List.mem_cons] at hx ⊢; tauto
      · intro x hx
        show x ≤ 2 ∨ x.toNat ∈ e.N ∨ x ∈ s.sIn :: base s
        have hx : x ∈ -1 :: s.sIn :: s.std1 :: base s := hx
        simp only [List.mem_cons] at hx ⊢
        rcases hx with rfl | rfl | rfl | hx
        · left; omega
        · tauto
        · right; right; right; simp [base]
        · tauto
    · exact nextPipe_I hs
  refine Tr.seq (Q := I e loc small (At e i e.masked0)) ?_ ?_
  · refine Tr.upd fun s h => ⟨h.good.sub ?_ ?_, h.ctl, ⟨h.ext.1, h.ext.2, ?_⟩, h.core⟩
    · intro x hx
      right; right
      show x ∈ s.next :: s.sIn :: s.sOut :: (if c.merge = true then s.std1 else s.std2) :: base s
      have hx : x ∈ s.next :: s.sIn :: s.sOut :: base s := hx
      simp only [List.mem_cons] at hx ⊢; tauto
    · intro x hx
      right; right
      show x ∈ s.next :: s.sIn :: s.sOut :: base s
      have hx : x ∈ s.next :: s.sIn :: s.sOut :: (if c.merge = true then s.std1 else s.std2) :: base s := hx
      simp only [List.mem_cons] at hx ⊢
      rcases hx with h | h | h | h | h
      · exact Or.inl h
      · exact Or.inr (Or.inl h)
      · exact Or.inr (Or.inr (Or.inl h))
      · right; right; right
        rw [h]; split <;> simp [base]
      · exact Or.inr (Or.inr (Or.inr h))
    · simp only [errOk]; split
      · exact Or.inl rfl
      · exact Or.inr rfl
  refine Tr.seq (Q := I e loc small (At e (i + 1) e.masked0)) ?_ ?_
  · refine Tr.orElse (create_I hs hi) (fun s h => ?_)
    have h1 := clSs_I (c := c) h
    show I e base none' (Fail e) (clNext (clE (clSErr c (clSOut (clSIn s)))))
    generalize clSErr c (clSOut (clSIn s)) = s1 at h1
    have e0 : cleanTab s1.k.tab s1.e0 = s1.k.tab := by simp only [cleanTab]; rw [if_neg (by have := h1.ext.1; omega)]
    have e1 : cleanTab s1.k.tab s1.e1 = s1.k.tab := by simp only [cleanTab]; rw [if_neg (by have := h1.ext.2; omega)]
    refine clNext_I (X := none') ⟨?_, h1.ctl, trivial, h1.core⟩
    have : (clE s1).k.tab = s1.k.tab := by simp only [clE, clE1, clE0, withTab, e0, e1]
    rw [this]; exact h1.good
  · exact Tr.seq (Tr.upd (Q := fun s => I e start idle (At e (i + 1) e.masked0) (clSErr c (clSOut s))) fun s h => clSs_I h)
      (Tr.seq (Tr.upd (Q := fun s => I e start idle (At e (i + 1) e.masked0) (clSErr c s)) fun s h => h) (Tr.upd fun s h => h))

theorem commands_I {e : Env} (hs : Std e.t0 e.N) {c : Cfg} : ∀ (m i : Nat), i + m = e.n →
    Tr (I e start idle (At e i e.masked0)) (commands c i m) (I e start idle (At e e.n e.masked0)) (I e base none' (Fail e))
  | 0, i, h => by
    have : i = e.n := by omega
    subst this
    exact fun s hs => ⟨fun _ => hs, fun hh => by simp [commands, ok] at hh⟩
  | m + 1, i, h => Tr.seq (command_I hs (by omega)) (commands_I hs m (i + 1) (by omega))

/-! ### The start -/

structure Begin (e : Env) (κ : Core) : Prop where
  ch : κ.children = e.children0
  nextPos : 0 < κ.nextPid
  fk : e.forkOk → ∀ b ∈ κ.forkFails, b = false
  sg : κ.signalled = e.signalled0
  wt : κ.waited = e.waited0
  ub : κ.ub = false
  back : κ.backOk = e.backOk
  gc : κ.getcwdOk = e.getcwdOk
  pids : κ.forkPids = List.replicate e.n 0
  mask : κ.masked = e.masked0
  st : κ.state = .starting
  real : κ.realCwd = e.wd.map (fun _ => none)
  cwd : κ.cwd = e.cwd0

theorem Begin.at {e : Env} {κ : Core} (h : Begin e κ) (d : Option (Option Str)) (w : Str)
    (hd : (e.wd = none ∧ d = none ∧ w = e.cwd0) ∨ (e.wd.isSome = true ∧ e.getcwdOk = true ∧ d = some (some e.cwd0)) ∨
    (e.wd.isSome = true ∧ e.getcwdOk = false ∧ d = some none ∧ w = e.cwd0)) : At e 0 e.masked0 { κ with realCwd := d, cwd := w } := by
  have hn : newPids e { κ with realCwd := d, cwd := w } = [] := by simp [newPids, h.ch]
  refine ⟨⟨by rw [← h.ch]; exact List.prefix_refl _, h.nextPos, ?_, h.fk, h.sg, h.wt, h.ub, h.back, h.gc, hd⟩, ?_, ?_, h.mask, h.st⟩
  · rw [hn]; simp
  · rw [hn]; simpa using h.pids
  · rw [hn]; rfl

def X0 (s : S) : Prop := s.rSig = -1 ∧ s.sig = -1 ∧ s.rOut = -1 ∧ s.rErr = -1 ∧ s.std0 = -1 ∧ s.std1 = -1 ∧ s.std2 = -1 ∧ idle s
def X1 (s : S) : Prop := s.rOut = -1 ∧ s.rErr = -1 ∧ s.std0 = -1 ∧ s.std1 = -1 ∧ s.std2 = -1 ∧ idle s
def Xa (s : S) : Prop := 2 < s.rSig ∧ 2 < s.sig ∧ X1 s
def X2 (s : S) : Prop := s.rOut = -1 ∧ s.rErr = -1 ∧ s.std1 = -1 ∧ s.std2 = -1 ∧ idle s
def X3 (s : S) : Prop := s.rErr = -1 ∧ s.std2 = -1 ∧ idle s
def Xo (s : S) : Prop := 2 < s.rOut ∧ 2 < s.std1 ∧ X3 s
def Xe (s : S) : Prop := 2 < s.rErr ∧ 2 < s.std2 ∧ idle s

theorem vars_base (X : S → Prop) (h : ∀ s k, X s → X { s with k := k }) : Vars base X := fun s k => ⟨rfl, h s k⟩

theorem I.failed {e : Env} {X : S → Prop} {s : S} (h : I e base X (At e 0 e.masked0) s) : I e base none' (Fail e) s := ⟨h.good, h.ctl, trivial, h.core.fail⟩

theorem chdir_I {e : Env} {c : Cfg} (hw : c.wd = e.wd) : Tr (I e base X0 (Begin e)) (chdirStep c) (I e base X0 (At e 0 e.masked0)) (I e base none' (Fail e)) := by
  intro s h
  simp only [chdirStep, hw]
  have hb := h.core
  split
  · next hwd =>
    refine ⟨fun _ => ⟨h.good, h.ctl, h.ext, ?_⟩, fun hh => by simp at hh⟩
    have := hb.at (core s).realCwd (core s).cwd (Or.inl ⟨hwd, by rw [hb.real, hwd]; rfl, hb.cwd⟩)
    exact this
  · next d hwd =>
    have hsome : e.wd.isSome = true := by simp [hwd]
    have hgc : s.k.getcwdOk = e.getcwdOk := hb.gc
    have hcw : s.k.cwd = e.cwd0 := hb.cwd
    split
    · next hg =>
      rw [hg] at hgc
      obtain ⟨p1, p2, _, p3⟩ := pop_k s.k
      have ha : ∀ w, At e 0 e.masked0 { core s with realCwd := some (some s.k.cwd), cwd := w } := fun w => hb.at _ _ (Or.inr (Or.inl ⟨hsome, hgc.symm, by rw [hcw]⟩))
      have hco := p3 { s with realCwd := some (some s.k.cwd) }
      have g : Good e.t0 e.N (base s) (pop s.k).2.tab := by rw [p1]; exact h.good
      have hc : e.noFail → ∀ b ∈ (pop s.k).2.ctl, b = false := by rw [p2]; exact h.ctl
      simp only [Act.seq, call]
      rcases hp : pop s.k with ⟨_ | _, k⟩
      · rw [hp] at g hc hco
        refine ⟨fun hh => by simp at hh, fun _ => ⟨g, hc, trivial, ?_⟩⟩
        show Fail e (core { s with realCwd := some (some s.k.cwd), k := k })
        rw [hco]
        exact (ha s.k.cwd).fail
      · rw [hp] at g hc hco
        refine ⟨fun _ => ⟨g, hc, h.ext, ?_⟩, fun hh => by simp [upd] at hh⟩
        have : core { s with realCwd := some (some s.k.cwd), k := { k with cwd := d } } = { core { s with realCwd := some (some s.k.cwd), k := k } with cwd := d } := rfl
        show At e 0 e.masked0 (core { s with realCwd := some (some s.k.cwd), k := { k with cwd := d } })
        rw [this, hco]
        exact ha d
    · next hg =>
      refine ⟨fun hh => by simp at hh, fun _ => ⟨h.good, h.ctl, trivial, ?_⟩⟩
      have hgf : e.getcwdOk = false := by rw [← hgc]; simpa using hg
      have := hb.at (core s).realCwd (core s).cwd (Or.inr (Or.inr ⟨hsome, hgf, by rw [hb.real, hwd]; rfl, hb.cwd⟩))
      exact At.fail this

theorem add_I {e : Env} (hs : Std e.t0 e.N) : Tr (I e base X0 (At e 0 e.masked0)) add (I e base X1 (At e 0 e.masked0)) (I e base none' (Fail e)) := by
  have hva : Vars base Xa := vars_base _ (fun _ _ h => h)
  have hr : ∀ s, Xa s → (S.rSig s).toNat ∈ e.N ∨ (2 < S.rSig s ∧ S.rSig s ∈ base s) := fun s h => Or.inr ⟨h.1, by simp [base]⟩
  have hg : ∀ s, Xa s → (S.sig s).toNat ∈ e.N ∨ (2 < S.sig s ∧ S.sig s ∈ base s) := fun s h => Or.inr ⟨h.2.1, by simp [base]⟩
  unfold add
  refine Tr.seq (Q := I e base Xa (At e 0 e.masked0)) ((pipe_I hs (vars_base _ fun _ _ h => h) ?_).post (fun _ h => h) (fun s h => h.failed)) ?_
  · intro a b s hX ha hb
    obtain ⟨x1, x2, x3, x4, x5, x6, x7, x8⟩ := hX
    refine ⟨⟨by simp; omega, by simp; omega, x3, x4, x5, x6, x7, x8⟩, rfl, rfl, ?_, by simp [base], by simp [base], ?_⟩
    · intro x hx; simp only [base, List.mem_cons] at hx ⊢
      rcases hx with h | h | h | h | h | h | h | h <;> (try (left; omega)) <;> simp at h
    · intro x hx; simp only [base, List.mem_cons] at hx ⊢; tauto
  refine Tr.seq ((ctl_I hva nonblockOn hr).post (fun _ h => h) (fun s h => h.failed)) (Tr.seq ((ctl_I hva nonblockOn hg).post (fun _ h => h) (fun s h => h.failed))
    (Tr.seq ((ctl_I hva cloexecOn hr).post (fun _ h => h) (fun s h => h.failed)) (Tr.seq ((ctl_I hva cloexecOn hg).post (fun _ h => h) (fun s h => h.failed)) (Tr.upd fun s h => ?_))))
  obtain ⟨g, hc, hx, hco⟩ := h
  exact ⟨g, hc, hx.2.2, ⟨⟨hco.common.ch, hco.common.nextPos, hco.common.pos, hco.common.fk, hco.common.sg, hco.common.wt, hco.common.ub, hco.common.back, hco.common.gc, hco.common.dir⟩,
    hco.pids, hco.len, hco.mask, hco.st⟩⟩

/-- the descriptors the caller hands over -/
def natives (c : Cfg) : List Nat :=
  (match c.sin with | .native r w => [r, w] | _ => []) ++ (match c.sout with | .native r w => [r, w] | _ => []) ++ (match c.serr with | .native r w => [r, w] | _ => [])

theorem stdin_I {e : Env} (hs : Std e.t0 e.N) (i : In) (hN : ∀ r w, i = .native r w → r ∈ e.N ∧ w ∈ e.N) :
    Tr (I e base X1 (At e 0 e.masked0)) (stdinStep i) (I e base X2 (At e 0 e.masked0)) (I e base none' (Fail e)) := by
  have put : ∀ (v : Int), (v ≤ 2 ∨ v.toNat ∈ e.N) → ∀ s, I e base X1 (At e 0 e.masked0) s → I e base X2 (At e 0 e.masked0) { s with std0 := v } := by
    intro v hv s h
    obtain ⟨x1, x2, x3, x4, x5, x6⟩ := h.ext
    refine ⟨h.good.sub ?_ ?_, h.ctl, ⟨x1, x2, x4, x5, x6⟩, h.core⟩
    · intro x hx; simp only [base, List.mem_cons] at hx ⊢
      rcases hx with h | h | h | h | h | h | h | h <;> (try (left; omega)) <;> (try (right; right; tauto)); 
    · intro x hx; simp only [base, List.mem_cons] at hx ⊢
      rcases hx with h | h | h | h | h | h | h | h <;> (try (subst h; tauto)) <;> (right; right; tauto)
  cases i with
  | none => exact Tr.upd (put (-1) (by left; omega))
  | shared => exact Tr.upd (put 0 (by left; omega))
  | native r w =>
    obtain ⟨hr, hw⟩ := hN r w rfl
    have hv : Vars base X2 := vars_base _ (fun _ _ h => h)
    unfold stdinStep
    exact Tr.seq (Tr.upd (put r (by right; simpa using hr))) (Tr.seq ((ctl_I hv (v := fun _ => (r : Int)) cloexecOn (fun s _ => Or.inl (by simpa using hr))).post (fun _ h => h) (fun s h => h.failed))
      ((ctl_I hv (v := fun _ => (w : Int)) cloexecOn (fun s _ => Or.inl (by simpa using hw))).post (fun _ h => h) (fun s h => h.failed)))
  | file name =>
    unfold stdinStep
    have hv : Vars base (fun s => 2 < s.std0 ∧ X2 s) := vars_base _ (fun _ _ h => h)
    refine Tr.seq (Q := I e base (fun s => 2 < s.std0 ∧ X2 s) (At e 0 e.masked0)) ?_
      ((ctl_I hv cloexecOn (fun s h => Or.inr ⟨h.1, by simp [base]⟩)).post (fun s h => ⟨h.good, h.ctl, h.ext.2, h.core⟩) (fun s h => h.failed))
    intro s h
    obtain ⟨h1, h2⟩ := open_k hs (vars_base X1 fun _ _ h => h) h name false
    simp only [doOpen]
    split
    · next k hk => exact ⟨fun hh => by simp at hh, fun _ => (h1 k hk).failed⟩
    · next a k hk =>
      obtain ⟨g, hc, hco, l⟩ := h2 a k hk
      obtain ⟨x1, x2, x3, x4, x5, x6⟩ := h.ext
      refine ⟨fun _ => ⟨g.sub ?_ ?_, hc, ⟨by simp; omega, x1, x2, x4, x5, x6⟩, hco⟩, fun hh => by simp at hh⟩
      · intro x hx; simp only [base, List.mem_cons] at hx ⊢
        rcases hx with h | h | h | h | h | h | h | h | h <;> (try (left; omega)) <;> (right; right; tauto)
      · intro x hx; simp only [base, List.mem_cons] at hx ⊢; tauto

theorem outPipe_I {e : Env} (hs : Std e.t0 e.N) : Tr (I e base X2 (At e 0 e.masked0)) outPipe (I e base X3 (At e 0 e.masked0)) (I e base none' (Fail e)) := by
  have hv : Vars base Xo := vars_base _ (fun _ _ h => h)
  have hr : ∀ s, Xo s → (S.rOut s).toNat ∈ e.N ∨ (2 < S.rOut s ∧ S.rOut s ∈ base s) := fun s h => Or.inr ⟨h.1, by simp [base]⟩
  have hg : ∀ s, Xo s → (S.std1 s).toNat ∈ e.N ∨ (2 < S.std1 s ∧ S.std1 s ∈ base s) := fun s h => Or.inr ⟨h.2.1, by simp [base]⟩
  unfold outPipe
  refine Tr.seq (Q := I e base Xo (At e 0 e.masked0)) ((pipe_I hs (vars_base _ fun _ _ h => h) ?_).post (fun _ h => h) (fun s h => h.failed)) ?_
  · intro a b s hX ha hb
    obtain ⟨x1, x2, x3, x4, x5⟩ := hX
    refine ⟨⟨by simp; omega, by simp; omega, x2, x4, x5⟩, rfl, rfl, ?_, by simp [base], by simp [base], ?_⟩
    · intro x hx; simp only [base, List.mem_cons] at hx ⊢
      rcases hx with h | h | h | h | h | h | h | h <;> (try (left; omega)) <;> (right; right; tauto)
    · intro x hx; simp only [base, List.mem_cons] at hx ⊢; tauto
  refine Tr.seq ((ctl_I hv cloexecOn hr).post (fun _ h => h) (fun s h => h.failed)) (Tr.seq ((ctl_I hv cloexecOn hg).post (fun _ h => h) (fun s h => h.failed))
    ((ctl_I hv nonblockOn hr).post (fun s h => ⟨h.good, h.ctl, h.ext.2.2, h.core⟩) (fun s h => h.failed)))

theorem errPipe_I {e : Env} (hs : Std e.t0 e.N) : Tr (I e base X3 (At e 0 e.masked0)) errPipe (I e base idle (At e 0 e.masked0)) (I e base none' (Fail e)) := by
  have hv : Vars base Xe := vars_base _ (fun _ _ h => h)
  have hr : ∀ s, Xe s → (S.rErr s).toNat ∈ e.N ∨ (2 < S.rErr s ∧ S.rErr s ∈ base s) := fun s h => Or.inr ⟨h.1, by simp [base]⟩
  have hg : ∀ s, Xe s → (S.std2 s).toNat ∈ e.N ∨ (2 < S.std2 s ∧ S.std2 s ∈ base s) := fun s h => Or.inr ⟨h.2.1, by simp [base]⟩
  unfold errPipe
  refine Tr.seq (Q := I e base Xe (At e 0 e.masked0)) ((pipe_I hs (vars_base _ fun _ _ h => h) ?_).post (fun _ h => h) (fun s h => h.failed)) ?_
  · intro a b s hX ha hb
    obtain ⟨x1, x2, x3⟩ := hX
    refine ⟨⟨by simp; omega, by simp; omega, x3⟩, rfl, rfl, ?_, by simp [base], by simp [base], ?_⟩
    · intro x hx; simp only [base, List.mem_cons] at hx ⊢
      rcases hx with h | h | h | h | h | h | h | h <;> (try (left; omega)) <;> (right; right; tauto)
    · intro x hx; simp only [base, List.mem_cons] at hx ⊢; tauto
  refine Tr.seq ((ctl_I hv cloexecOn hr).post (fun _ h => h) (fun s h => h.failed)) (Tr.seq ((ctl_I hv cloexecOn hg).post (fun _ h => h) (fun s h => h.failed))
    ((ctl_I hv nonblockOn hr).post (fun s h => ⟨h.good, h.ctl, h.ext.2.2, h.core⟩) (fun s h => h.failed)))

theorem openFile_tab {k k' : K} {name : Str} {w : Bool} {a : Nat} (h : openFile k name w = (some a, k')) : ∃ x, k'.tab a = some x := by
  simp only [openFile] at h
  split at h
  · simp at h
  · split at h
    · simp at h
    · simp only [Prod.mk.injEq, Option.some.injEq] at h
      obtain ⟨rfl, rfl⟩ := h
      exact ⟨_, by simp [setTab]; rfl⟩

theorem openOut_I {e : Env} (hs : Std e.t0 e.N) (hnf : e.noFail) {X X' : S → Prop} (hX : ∀ s k, X s → X { s with k := k }) (name : Str) {put : Nat → S → S}
    (hp : ∀ (a : Nat) (s : S), X s → 2 < a → X' (put a s) ∧ (put a s).k = s.k ∧ core (put a s) = core s ∧
      (∀ x ∈ base s, x ≤ 2 ∨ x ∈ base (put a s)) ∧ (a : Int) ∈ base (put a s) ∧ (∀ x ∈ base (put a s), x = a ∨ x ∈ base s)) :
    Tr (I e base X (At e 0 e.masked0)) (openOut name put) (I e base X' (At e 0 e.masked0)) (I e base none' (Fail e)) := by
  intro s h
  obtain ⟨h1, h2⟩ := open_k hs (vars_base X hX) h name true
  simp only [openOut]
  split
  · next k hk => exact ⟨fun hh => by simp at hh, fun _ => (h1 k hk).failed⟩
  · next a k hk =>
    obtain ⟨g, hc, hco, l⟩ := h2 a k hk
    obtain ⟨y, hy⟩ := openFile_tab hk
    obtain ⟨p1, p2, p3⟩ := popCtl_k k
    obtain ⟨p4, p5⟩ := p2 (hc hnf)
    have hf : fcntl k (a : Int) cloexecOn = (true, { (popCtl k).2 with tab := setTab (popCtl k).2.tab a (some (cloexecOn y)) }) := by
      simp only [fcntl]
      rcases hq : popCtl k with ⟨b, k'⟩
      rw [hq] at p1 p4
      simp only at p4
      subst p4
      simp only at p1
      have : k'.tab a = some y := by rw [p1]; exact hy
      simp [this]
    simp only [Act.seq, doCtl, hf, upd]
    refine ⟨fun _ => ?_, fun hh => by simp at hh⟩
    obtain ⟨q1, q2, q3, q4, q5, q6⟩ := hp a { s with k := { (popCtl k).2 with tab := setTab (popCtl k).2.tab a (some (cloexecOn y)) } } (hX s _ h.ext) l
    refine ⟨?_, by rw [q2]; exact fun _ => p5, q1, ?_⟩
    · rw [q2]
      have g2 := g.flag (x := (a : Int)) (by omega) (Or.inr ⟨by omega, by simp⟩) (cloexecOn y)
      rw [← p1] at g2
      refine g2.sub ?_ ?_
      · intro x hx
        rcases List.mem_cons.mp hx with rfl | hx
        · exact Or.inr (Or.inr q5)
        · exact (q4 x hx).imp id Or.inr
      · intro x hx; right; right
        rcases q6 x hx with rfl | h
        · simp
        · exact List.mem_cons_of_mem _ h
    · rw [q3]
      have := p3 s
      show At e 0 e.masked0 (core { s with k := (popCtl k).2 })
      rw [this]; exact hco

theorem outSetup_I {e : Env} (hs : Std e.t0 e.N) (o : Out) (hN : ∀ r w, o = .native r w → r ∈ e.N ∧ w ∈ e.N) (hf : ∀ n, o = .file n → e.noFail) :
    Tr (I e base X3 (At e 0 e.masked0)) (outSetup o) (I e base X3 (At e 0 e.masked0)) (I e base none' (Fail e)) := by
  have cl : ∀ s, I e base X3 (At e 0 e.masked0) s → I e base (fun s => s.std1 ≤ 2 ∧ X3 s) (At e 0 e.masked0) (clStd1 s) := by
    intro s h
    have h0 : I e (fun s => s.std1 :: [s.rOut, s.rErr, s.rSig, s.sig, s.std0, s.std2]) X3 (At e 0 e.masked0) s := h.perm _ (by intro x; simp only [base, List.mem_cons]; tauto)
    have h1 : I e (fun s => [s.rOut, s.rErr, s.rSig, s.sig, s.std0, s.std2]) (fun s => s.std1 ≤ 2 ∧ X3 s) (At e 0 e.masked0) (clStd1 s) :=
      clean1 (v := S.std1) h0 rfl rfl rfl rfl (fun h => ⟨cleanVal_le _, h⟩)
    generalize clStd1 s = s1 at h1
    refine h1.mono ?_ ?_ (fun h => h) (fun _ h => h)
    · intro x hx; right; right; simp only [base, List.mem_cons] at hx ⊢; tauto
    · intro x hx
      have := h1.ext.1
      simp only [base, List.mem_cons] at hx ⊢
      rcases hx with h | h | h | h | h | h | h | h <;> (try (left; omega)) <;> (right; right; tauto)
  have put : ∀ (v : Int), (v ≤ 2 ∨ v.toNat ∈ e.N) → ∀ s, I e base (fun s => s.std1 ≤ 2 ∧ X3 s) (At e 0 e.masked0) s → I e base X3 (At e 0 e.masked0) { s with std1 := v } := by
    intro v hv s h
    have x1 := h.ext.1
    refine ⟨h.good.sub ?_ ?_, h.ctl, h.ext.2, h.core⟩
    · intro x hx; simp only [base, List.mem_cons] at hx ⊢
      rcases hx with h | h | h | h | h | h | h | h <;> (try (left; omega)) <;> (right; right; tauto)
    · intro x hx; simp only [base, List.mem_cons] at hx ⊢
      rcases hx with h | h | h | h | h | h | h | h <;> (try (subst h; tauto)) <;> (right; right; tauto)
  cases o with
  | pipe => exact fun s h => ⟨fun _ => h, fun hh => by simp [outSetup, ok] at hh⟩
  | shared => unfold outSetup; exact Tr.seq (Tr.upd cl) (Tr.upd (put 1 (by left; omega)))
  | native r w =>
    obtain ⟨hr, hw⟩ := hN r w rfl
    have hv : Vars base (fun s => s.std1 ≤ 2 ∧ X3 s) := vars_base _ (fun _ _ h => h)
    unfold outSetup
    exact Tr.seq (Tr.upd cl) (Tr.seq ((ctl_I hv (v := fun _ => (r : Int)) cloexecOn (fun s _ => Or.inl (by simpa using hr))).post (fun _ h => h) (fun s h => h.failed))
      (Tr.seq ((ctl_I hv (v := fun _ => (w : Int)) cloexecOn (fun s _ => Or.inl (by simpa using hw))).post (fun _ h => h) (fun s h => h.failed)) (Tr.upd (put w (by right; simpa using hw)))))
  | file name =>
    unfold outSetup
    refine Tr.seq (Tr.upd cl) (openOut_I hs (hf name rfl) (fun _ _ h => h) name ?_)
    intro a s hX l
    have x1 := hX.1
    refine ⟨hX.2, rfl, rfl, ?_, by simp [base], ?_⟩
    · intro x hx; simp only [base, List.mem_cons] at hx ⊢
      rcases hx with h | h | h | h | h | h | h | h <;> (try (left; omega)) <;> (right; tauto)
    · intro x hx; simp only [base, List.mem_cons] at hx ⊢; tauto

theorem errSetup_I {e : Env} (hs : Std e.t0 e.N) (o : Out) (hN : ∀ r w, o = .native r w → r ∈ e.N ∧ w ∈ e.N) (hf : ∀ n, o = .file n → e.noFail) :
    Tr (I e base idle (At e 0 e.masked0)) (errSetup o) (I e base idle (At e 0 e.masked0)) (I e base none' (Fail e)) := by
  have cl : ∀ s, I e base idle (At e 0 e.masked0) s → I e base (fun s => s.std2 ≤ 2 ∧ idle s) (At e 0 e.masked0) (clStd2 s) := by
    intro s h
    have h0 : I e (fun s => s.std2 :: [s.rOut, s.rErr, s.rSig, s.sig, s.std0, s.std1]) idle (At e 0 e.masked0) s := h.perm _ (by intro x; simp only [base, List.mem_cons]; tauto)
    have h1 : I e (fun s => [s.rOut, s.rErr, s.rSig, s.sig, s.std0, s.std1]) (fun s => s.std2 ≤ 2 ∧ idle s) (At e 0 e.masked0) (clStd2 s) :=
      clean1 (v := S.std2) h0 rfl rfl rfl rfl (fun h => ⟨cleanVal_le _, h⟩)
    generalize clStd2 s = s1 at h1
    refine h1.mono ?_ ?_ (fun h => h) (fun _ h => h)
    · intro x hx; right; right; simp only [base, List.mem_cons] at hx ⊢; tauto
    · intro x hx
      have := h1.ext.1
      simp only [base, List.mem_cons] at hx ⊢
      rcases hx with h | h | h | h | h | h | h | h <;> (try (left; omega)) <;> (right; right; tauto)
  have put : ∀ (v : Int), (v ≤ 2 ∨ v.toNat ∈ e.N) → ∀ s, I e base (fun s => s.std2 ≤ 2 ∧ idle s) (At e 0 e.masked0) s → I e base idle (At e 0 e.masked0) { s with std2 := v } := by
    intro v hv s h
    have x1 := h.ext.1
    refine ⟨h.good.sub ?_ ?_, h.ctl, h.ext.2, h.core⟩
    · intro x hx; simp only [base, List.mem_cons] at hx ⊢
      rcases hx with h | h | h | h | h | h | h | h <;> (try (left; omega)) <;> (right; right; tauto)
    · intro x hx; simp only [base, List.mem_cons] at hx ⊢
      rcases hx with h | h | h | h | h | h | h | h <;> (try (subst h; tauto)) <;> (right; right; tauto)
  cases o with
  | pipe => exact fun s h => ⟨fun _ => h, fun hh => by simp [errSetup, ok] at hh⟩
  | shared => unfold errSetup; exact Tr.seq (Tr.upd cl) (Tr.upd (put 2 (by left; omega)))
  | native r w =>
    obtain ⟨hr, hw⟩ := hN r w rfl
    have hv : Vars base (fun s => s.std2 ≤ 2 ∧ idle s) := vars_base _ (fun _ _ h => h)
    unfold errSetup
    exact Tr.seq (Tr.upd cl) (Tr.seq ((ctl_I hv (v := fun _ => (r : Int)) cloexecOn (fun s _ => Or.inl (by simpa using hr))).post (fun _ h => h) (fun s h => h.failed))
      (Tr.seq ((ctl_I hv (v := fun _ => (w : Int)) cloexecOn (fun s _ => Or.inl (by simpa using hw))).post (fun _ h => h) (fun s h => h.failed)) (Tr.upd (put w (by right; simpa using hw)))))
  | file name =>
    unfold errSetup
    refine Tr.seq (Tr.upd cl) (openOut_I hs (hf name rfl) (fun _ _ h => h) name ?_)
    intro a s hX l
    have x1 := hX.1
    refine ⟨hX.2, rfl, rfl, ?_, by simp [base], ?_⟩
    · intro x hx; simp only [base, List.mem_cons] at hx ⊢
      rcases hx with h | h | h | h | h | h | h | h <;> (try (left; omega)) <;> (right; tauto)
    · intro x hx; simp only [base, List.mem_cons] at hx ⊢; tauto

/-- all descriptors a caller hands over are in `N`, and files for output come with a working `fcntl` -/
def Fits (e : Env) (c : Cfg) : Prop :=
  c.n = e.n ∧ c.wd = e.wd ∧ (∀ x ∈ natives c, x ∈ e.N) ∧ (∀ n, c.sout = .file n → e.noFail) ∧ (∀ n, c.serr = .file n → e.noFail)

theorem startUp_I {e : Env} (hs : Std e.t0 e.N) {c : Cfg} (hc : Fits e c) :
    Tr (I e base X0 (Begin e)) (startUp c) (I e start idle (At e e.n e.masked0)) (I e base none' (Fail e)) := by
  obtain ⟨h1, h2, h3, h4, h5⟩ := hc
  unfold startUp
  refine Tr.seq (chdir_I h2) (Tr.seq (Q := I e base X1 (At e 0 e.masked0)) ?_ (Tr.seq (stdin_I hs c.sin ?_) (Tr.seq (outPipe_I hs) (Tr.seq (outSetup_I hs c.sout ?_ h4)
    (Tr.seq (errPipe_I hs) (Tr.seq (errSetup_I hs c.serr ?_ h5) (Tr.seq (Q := I e start idle (At e 0 e.masked0)) (Tr.upd fun s h => ?_) ?_)))))))
  · split
    · exact fun s h => ⟨fun _ => ⟨h.good, h.ctl, h.ext.2.2, h.core⟩, fun hh => by simp [ok] at hh⟩
    · exact add_I hs
  · intro r w hi
    exact ⟨h3 r (by simp [natives, hi]), h3 w (by simp [natives, hi])⟩
  · intro r w hi
    exact ⟨h3 r (by simp [natives, hi]), h3 w (by simp [natives, hi])⟩
  · intro r w hi
    exact ⟨h3 r (by simp [natives, hi]), h3 w (by simp [natives, hi])⟩
  · refine ⟨h.good.sub ?_ ?_, h.ctl, h.ext, h.core⟩
    · intro x hx; right; right
      exact List.mem_cons_of_mem _ hx
    · intro x hx; right; right
      have hx : x ∈ s.std0 :: base s := hx
      rcases List.mem_cons.mp hx with rfl | hx
      · simp [base]
      · exact hx
  · rw [h1]; exact commands_I hs e.n 0 (by omega)

/-! ### The signal pipe of a detached process -/

def Keeps (f : Act) : Prop := ∀ s, (f s).2.sig = s.sig

theorem Keeps.seq {f g : Act} (h1 : Keeps f) (h2 : Keeps g) : Keeps (f &> g) := by
  intro s
  have := h1 s
  simp only [Act.seq]
  rcases hf : f s with ⟨_ | _, s'⟩
  · rw [hf] at this; exact this
  · rw [hf] at this; exact (h2 s').trans this

theorem Keeps.orElse {f g : Act} (h1 : Keeps f) (h2 : Keeps g) : Keeps (orElse f g) := by
  intro s
  have := h1 s
  simp only [Exec.orElse]
  rcases hf : f s with ⟨_ | _, s'⟩
  · rw [hf] at this; exact (h2 s').trans this
  · rw [hf] at this; exact this

theorem Keeps.upd {u : S → S} (h : ∀ s, (u s).sig = s.sig) : Keeps (upd u) := h
theorem keeps_ctl (v : S → Int) (f : Fd → Fd) : Keeps (doCtl v f) := fun _ => rfl
theorem keeps_call : Keeps call := fun _ => rfl

theorem keeps_pipe {put : Nat → Nat → S → S} (h : ∀ a b s, (put a b s).sig = s.sig) : Keeps (doPipe put) := by
  intro s
  simp only [doPipe]
  split
  · rfl
  · rw [h]

theorem keeps_clNext (s : S) : (clNext s).sig = s.sig := by simp only [clNext]; split <;> rfl
theorem keeps_clSIn (s : S) : (clSIn s).sig = s.sig := by simp only [clSIn]; split <;> rfl
theorem keeps_clSOut (s : S) : (clSOut s).sig = s.sig := by simp only [clSOut]; split <;> rfl
theorem keeps_clSErr (c : Cfg) (s : S) : (clSErr c s).sig = s.sig := by simp only [clSErr]; split <;> rfl

theorem keeps_fork (i : Nat) : Keeps (fork i) := by
  intro s
  simp only [fork]
  split <;> rfl

theorem keeps_exec : Keeps execResult := by
  intro s
  simp only [execResult]
  split <;> rfl

theorem keeps_id (f : Act) (h : ∀ s, (f s).2.sig = s.sig) : Keeps f := h

/-- one goal per step -/
macro "keeps" : tactic => `(tactic| repeat' first
  | with_reducible refine Keeps.seq ?_ ?_ | with_reducible refine Keeps.orElse ?_ ?_
  | with_reducible exact keeps_fork _ | with_reducible exact keeps_exec | with_reducible exact keeps_call | with_reducible exact keeps_ctl _ _
  | with_reducible exact Keeps.upd keeps_clSIn | with_reducible exact Keeps.upd keeps_clSOut | with_reducible exact Keeps.upd (keeps_clSErr _) | with_reducible exact Keeps.upd keeps_clNext
  | (with_reducible refine keeps_pipe ?_; intro a b s; rfl)
  | (refine keeps_id _ ?_; intro s; rfl))

theorem keeps_create (i : Nat) : Keeps (create i) := by
  intro s
  have : ∀ m, Keeps (doPipe (fun a b s => { s with e0 := a, e1 := b }) &>
      orElse (doPipe (fun a b s => { s with g0 := a, g1 := b })) (upd clE) &>
      orElse (doCtl S.e1 cloexecOn &> doCtl S.g1 cloexecOn) (upd clEG) &>
      block &>
      orElse (fork i) (unblock m &> upd clEG) &>
      upd clE1 &> upd clG1 &>
      orElse call (unblock m &> upd clE0 &> upd clG0) &>
      upd clG0 &>
      unblock m &>
      orElse execResult (upd clE0) &>
      upd clE0) := by
    intro m
    keeps
  exact this s.k.masked s

theorem keeps_nextPipe : Keeps nextPipe := by
  intro s
  simp only [nextPipe]
  split
  · rw [keeps_clNext]
  · next a b k _ =>
    have := ((keeps_ctl (fun _ => (a : Int)) cloexecOn).seq (keeps_ctl (fun _ => (b : Int)) cloexecOn)) { s with k := k }
    split
    · next s' hs => rw [hs] at this; exact this
    · next s' hs => rw [hs] at this; rw [keeps_clNext]; exact this

theorem keeps_command (c : Cfg) (i : Nat) : Keeps (command c i) := by
  unfold command
  refine Keeps.seq (by keeps) (Keeps.seq ?_ (Keeps.seq (by keeps) (((keeps_create i).orElse (by keeps)).seq (by keeps))))
  split
  · keeps
  · exact keeps_nextPipe

theorem keeps_commands (c : Cfg) : ∀ m i, Keeps (commands c i m)
  | 0, _ => fun _ => rfl
  | m + 1, i => (keeps_command c i).seq (keeps_commands c m (i + 1))

theorem keeps_openOut (name : Str) {put : Nat → S → S} (h : ∀ a s, (put a s).sig = s.sig) : Keeps (openOut name put) := by
  intro s
  simp only [openOut]
  split
  · rfl
  · next a k _ =>
    exact ((keeps_ctl (fun _ => (a : Int)) cloexecOn).seq (Keeps.upd (h a))) { s with k := k }

theorem keeps_startUp {c : Cfg} (hd : c.detach = true) : Keeps (startUp c) := by
  unfold startUp
  rw [if_pos hd]
  refine Keeps.seq ?_ (Keeps.seq (by keeps) (Keeps.seq ?_ (Keeps.seq ?_ (Keeps.seq ?_ (Keeps.seq ?_ (Keeps.seq ?_ (Keeps.seq (by keeps) (keeps_commands c _ _))))))))
  · intro s
    simp only [chdirStep]
    split
    · rfl
    · next d _ =>
      split
      · have : Keeps (call &> upd (fun s => { s with k := { s.k with cwd := d } })) := by keeps
        exact this { s with realCwd := some (some s.k.cwd) }
      · rfl
  · cases c.sin with
    | none => exact fun _ => rfl
    | shared => exact fun _ => rfl
    | native r w => unfold stdinStep; keeps
    | file n =>
      unfold stdinStep
      refine Keeps.seq (fun s => ?_) (keeps_ctl _ _)
      simp only [doOpen]; split <;> rfl
  · unfold outPipe; keeps
  · cases c.sout with
    | pipe => exact fun _ => rfl
    | shared => unfold outSetup; keeps
    | native r w => unfold outSetup; keeps
    | file n => unfold outSetup; exact Keeps.seq (by keeps) (keeps_openOut n fun _ _ => rfl)
  · unfold errPipe; keeps
  · cases c.serr with
    | pipe => exact fun _ => rfl
    | shared => unfold errSetup; keeps
    | native r w => unfold errSetup; keeps
    | file n => unfold errSetup; exact Keeps.seq (by keeps) (keeps_openOut n fun _ _ => rfl)

/-! ### The cleaning up -/

theorem cleanupRest_tab {e : Env} {c : Cfg} {s : S} (h : Good e.t0 e.N (base s) s.k.tab) (hd : c.detach = true → s.sig ≤ 2) :
    Good e.t0 e.N [] (cleanupRest c s).k.tab := by
  have main : ∀ s : S, Good e.t0 e.N [s.rOut, s.rErr, s.rSig, s.std0, s.std1, s.std2] s.k.tab →
      Good e.t0 e.N [] (clStd2 (clStd1 (clStd0 (clRSig (clRErr (clROut { s with forkPids := [], realCwd := none })))))).k.tab := by
    intro s h
    exact h.clean'.clean'.clean'.clean'.clean'.clean'
  simp only [cleanupRest]
  split
  · next hdt =>
    refine main s (h.sub ?_ ?_)
    · intro x hx
      have := hd hdt
      simp only [base, List.mem_cons] at hx ⊢
      rcases hx with h | h | h | h | h | h | h | h <;> (try (left; omega)) <;> (right; right; tauto)
    · intro x hx; right; right; simp only [base, List.mem_cons] at hx ⊢; tauto
  · refine main _ ?_
    show Good e.t0 e.N [s.rOut, s.rErr, s.rSig, s.std0, s.std1, s.std2] (cleanTab s.k.tab s.sig)
    refine Good.clean' (h.sub ?_ ?_)
    · intro x hx; right; right; simp only [base, List.mem_cons] at hx ⊢; tauto
    · intro x hx; right; right; simp only [base, List.mem_cons] at hx ⊢; tauto

theorem cleanupRest_k (c : Cfg) (s : S) : (cleanupRest c s).k = { s.k with tab := (cleanupRest c s).k.tab, listed := if c.detach then s.k.listed else false } ∧ (cleanupRest c s).state = s.state := by
  simp only [cleanupRest]
  split <;> exact ⟨rfl, rfl⟩

theorem filter_pids {l : List Int} (h : ∀ x ∈ l, 0 < x) (j : Nat) : (l ++ List.replicate j 0).filter (· ≠ 0) = l ∧ (l ++ -1 :: List.replicate j 0).filter (· ≠ 0) = l ++ [-1] := by
  have h1 : l.filter (· ≠ 0) = l := List.filter_eq_self.mpr (fun x hx => by have := h x hx; simp; omega)
  have h2 : (List.replicate j (0 : Int)).filter (· ≠ 0) = [] := by simp
  constructor
  · rw [List.filter_append, h1, h2, List.append_nil]
  · rw [List.filter_append, h1]
    simp

/-! ### C203, C205 -/

/-- The processes started between two states. -/
def started (s r : S) : List Int := (r.k.children.drop s.k.children.length).map (fun c => (c.pid : Int))

/-- Everything a failed call leaves: no descriptor, the mask, and the processes it started are killed and waited for (after a failing `fork`, the
    number -1 is "killed" as well). -/
theorem execute_failed (c : Cfg) (s : S) (h0 : s.state ≠ .executing) (hn : 1 ≤ c.n) (hstd : ∀ fd, fd ≤ 2 → (s.k.tab fd).isSome = true) (hnat : ∀ x ∈ natives c, 2 < x)
    (hf : (∀ b ∈ s.k.ctl, b = false) ∨ ((∀ n, c.sout ≠ .file n) ∧ (∀ n, c.serr ≠ .file n))) (hub : s.k.ub = false) (hpid : 0 < s.k.nextPid) (he : (execute c s).state = .error) :
    (∀ fd, fd ∉ natives c → (execute c s).k.tab fd = s.k.tab fd) ∧
    (execute c s).k.masked = s.k.masked ∧
    s.k.children <+: (execute c s).k.children ∧
    (∃ l, (l = started s (execute c s) ∨ (l = started s (execute c s) ++ [-1] ∧ ∃ b ∈ s.k.forkFails, b = true)) ∧ (execute c s).k.signalled = s.k.signalled ++ l ∧ (execute c s).k.waited = s.k.waited ++ l) ∧
    (c.wd = none ∨ (s.k.getcwdOk = true ∧ s.k.backOk = true) → (execute c s).k.cwd = s.k.cwd) ∧
    (c.wd = none ∨ s.k.getcwdOk = true → (execute c s).k.ub = false) ∧
    (c.detach = false → (execute c s).k.listed = false) := by
  let e : Env := { t0 := s.k.tab, N := natives c, noFail := ∀ b ∈ s.k.ctl, b = false, forkOk := ∀ b ∈ s.k.forkFails, b = false, n := c.n, wd := c.wd, cwd0 := s.k.cwd,
                   masked0 := s.k.masked, children0 := s.k.children, signalled0 := s.k.signalled, waited0 := s.k.waited, getcwdOk := s.k.getcwdOk, backOk := s.k.backOk }
  have hs : Std e.t0 e.N := fun fd hfd => ⟨hstd fd hfd, fun hm => by have := hnat fd hm; omega⟩
  have hfit : Fits e c := by
    refine ⟨rfl, rfl, fun x hx => hx, ?_, ?_⟩
    · intro n hh
      rcases hf with hf | hf
      · exact hf
      · exact absurd hh (hf.1 n)
    · intro n hh
      rcases hf with hf | hf
      · exact hf
      · exact absurd hh (hf.2 n)
  have hb : I e base X0 (Begin e) (init c s) := by
    refine ⟨⟨fun fd _ _ => rfl, fun fd _ h3 hm => ?_⟩, fun h => h, ⟨rfl, rfl, rfl, rfl, rfl, rfl, rfl, by simp [init], by simp [init]⟩, ?_⟩
    · simp [init, base] at hm
    · exact ⟨rfl, hpid, fun h => h, rfl, rfl, hub, rfl, rfl, rfl, rfl, rfl, rfl, rfl⟩
  have ht := startUp_I hs hfit (init c s) hb
  have hk : c.detach = true → (startUp c (init c s)).2.sig = -1 := fun hd => keeps_startUp hd _
  have hne : ¬ c.n < 1 := by omega
  simp only [execute, h0, hne, if_false] at he ⊢
  rcases hx : startUp c (init c s) with ⟨_ | _, s1⟩
  · rw [hx] at ht hk
    simp only at he ⊢
    have hi := ht.2 rfl
    obtain ⟨q1, q2⟩ := cleanupRest_k c (cleanupError s1)
    have hg : Good e.t0 e.N [] (cleanupRest c (cleanupError s1)).k.tab := cleanupRest_tab (c := c) (s := cleanupError s1) hi.good (fun hd => by have : s1.sig = -1 := hk hd; show s1.sig ≤ 2; omega)
    have hcom := hi.core.common
    generalize hr : cleanupRest c (cleanupError s1) = r at *
    have hch : r.k.children = s1.k.children := by rw [q1]; rfl
    have hst : started s r = newPids e (core s1) := by unfold started; rw [hch]; rfl
    refine ⟨fun fd hfd => hg.1 fd hfd (Or.inr (by simp)), ?_, ?_, ?_, ?_, ?_, ?_⟩
    · rw [q1]; exact hi.core.mask
    · rw [q1]; exact hcom.ch
    · obtain ⟨j, hj⟩ := hi.core.pids
      have hsig : r.k.signalled = s.k.signalled ++ s1.forkPids.filter (· ≠ 0) := by
        rw [q1]; show s1.k.signalled ++ _ = _; rw [show s1.k.signalled = s.k.signalled from hcom.sg]
      have hwt : r.k.waited = s.k.waited ++ s1.forkPids.filter (· ≠ 0) := by
        rw [q1]; show s1.k.waited ++ _ = _; rw [show s1.k.waited = s.k.waited from hcom.wt]
      refine ⟨_, ?_, hsig, hwt⟩
      rw [hst]
      rcases hj with hj | ⟨hnf, hj⟩
      · left
        rw [show s1.forkPids = _ from hj]
        exact (filter_pids hcom.pos j).1
      · right
        rw [show s1.forkPids = _ from hj]
        refine ⟨(filter_pids hcom.pos j).2, ?_⟩
        have hnf : ¬ ∀ b ∈ s.k.forkFails, b = false := hnf
        have : ∃ b, b ∈ s.k.forkFails ∧ b = true := by
          by_cases hh : true ∈ s.k.forkFails
          · exact ⟨true, hh, rfl⟩
          · exact absurd (fun b hb => by cases b with | false => rfl | true => exact absurd hb hh) hnf
        exact this
    · intro hw
      rw [q1]
      have hbk : s1.k.backOk = s.k.backOk := hcom.back
      show (match s1.realCwd with | some (some d) => if s1.k.backOk then d else s1.k.cwd | _ => s1.k.cwd) = s.k.cwd
      rcases hcom.dir with ⟨d1, d2, d3⟩ | ⟨d1, d2, d3⟩ | ⟨d1, d2, d3, d4⟩
      · have d2 : s1.realCwd = none := d2
        rw [d2]; exact d3
      · have d3 : s1.realCwd = some (some s.k.cwd) := d3
        have d1 : c.wd.isSome = true := d1
        rcases hw with hw | ⟨_, hw⟩
        · rw [hw] at d1; simp at d1
        · rw [d3]; simp only [hbk, hw, if_true]
      · have d3 : s1.realCwd = some none := d3
        rw [d3]; exact d4
    · intro hw
      rw [q1]
      have hu : s1.k.ub = false := hcom.ub
      show (s1.k.ub || (s1.realCwd == some none)) = false
      rw [hu]
      rcases hcom.dir with ⟨d1, d2, d3⟩ | ⟨d1, d2, d3⟩ | ⟨d1, d2, d3, d4⟩
      · have d2 : s1.realCwd = none := d2
        rw [d2]; rfl
      · have d3 : s1.realCwd = some (some s.k.cwd) := d3
        rw [d3]; rfl
      · have d1 : c.wd.isSome = true := d1
        have d2 : s.k.getcwdOk = false := d2
        rcases hw with hw | hw
        · rw [hw] at d1; simp at d1
        · rw [hw] at d2; cases d2
    · intro hd
      rw [q1]
      simp [hd]
  · rw [hx] at he
    simp [finish] at he

end Vital.Proc.Exec
