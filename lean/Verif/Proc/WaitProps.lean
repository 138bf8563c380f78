import Verif.Proc.Wait
import Mathlib.Tactic.Tauto
/-
  Properties C196-C200 of the model in Verif/Proc/Wait.lean: delivery of the output, no lost wake-up, exit status,
  descriptors, stray signals.
-/
namespace Vital.Proc.Wait

/-! ### Proof machinery: the invariant of an executing object -/

def Child.alive : Child → Bool
  | .gone _ => false
  | _ => true

/-- The object is executing and nobody killed it; children below `k` that have exited are about to be noticed. -/
structure Live (k : Nat) (w : W) : Prop where
  lenF : w.fork.length = w.children.length
  lenC : w.codes.length = w.children.length
  fk : ∀ (i : Nat) (c : Child), w.children[i]? = some c → w.fork[i]? = some c.alive
  cd : ∀ (i st : Nat), w.children[i]? = some (.gone st) → w.codes[i]? = some st
  cl : w.commandsLeft = (w.fork.count true : Nat)
  sw : w.sigW = decide (0 < w.fork.count true)
  rs : w.rSig = false → w.sigW = false
  notif : ∀ (i st : Nat), i < k → w.children[i]? = some (.zombie st) → w.pending = true ∨ 0 < w.hActive ∨ 0 < w.sigBytes
  sp : w.sigpipe = false
  st : w.stray = 0
  ex : w.state = .executing
  str : ∀ p, (w.stream p).rOpen = false → (w.stream p).content = [] ∧ (w.stream p).wopen = false
  pl : w.pipesLeft = ((w.out.rOpen.toNat + w.err.rOpen.toNat + w.rSig.toNat : Nat) : Int)
  kd : w.killed = false ∧ w.timeoutExpired = false ∧ w.selectError = false

@[simp] theorem stream_out (w : W) : w.stream .out = w.out := rfl
@[simp] theorem stream_err (w : W) : w.stream .err = w.err := rfl

theorem Live.mono {k j w} (h : Live k w) (hj : j ≤ k) : Live j w :=
  { h with notif := fun i st hi => h.notif i st (by omega) }

/-- no child left to notice -/
theorem Live.noneLeft {k w} (h : Live k w) (hw : w.sigW = false) : ∀ (i : Nat) (c : Child), w.children[i]? = some c → c.alive = false := by
  intro i c hc
  have h1 := h.fk i c hc
  have h2 := h.sw
  rw [hw] at h2
  have h3 : w.fork.count true = 0 := by
    have := of_decide_eq_false h2.symm
    omega
  rw [List.count_eq_zero] at h3
  cases hb : c.alive with
  | false => rfl
  | true => rw [hb] at h1; exact absurd (List.mem_of_getElem? h1) h3

theorem event_live {k w} (h : Live k w) (e : Ev) : Live k (event w e) := by
  cases e with
  | write p b =>
    simp only [event]
    split
    · next hw =>
      have hs := h.str
      cases p
      · have := hs .out; have := hs .err
        refine { h with str := ?_ }
        intro q hq
        cases q <;> simp_all [W.setStream, W.stream]
      · have := hs .out; have := hs .err
        refine { h with str := ?_ }
        intro q hq
        cases q <;> simp_all [W.setStream, W.stream]
    · exact h
  | close p =>
    have hs := h.str
    cases p
    · have := hs .out; have := hs .err
      refine { h with str := ?_ }
      intro q hq
      cases q <;> simp_all [event, W.setStream, W.stream]
    · have := hs .out; have := hs .err
      refine { h with str := ?_ }
      intro q hq
      cases q <;> simp_all [event, W.setStream, W.stream]
  | exit i st =>
    simp only [event]
    split
    · next hr =>
      refine { h with lenF := ?_, lenC := ?_, fk := ?_, cd := ?_, notif := ?_ }
      · simpa using h.lenF
      · simpa using h.lenC
      · intro j c hc
        simp only [List.getElem?_set] at hc
        by_cases hij : i = j
        · subst hij
          have hlt : i < w.children.length := by
            rw [List.getElem?_eq_some_iff] at hr; exact hr.1
          simp [hlt] at hc
          subst hc
          simpa [Child.alive] using h.fk i _ hr
        · simp [hij] at hc
          exact h.fk j c hc
      · intro j s hc
        simp only [List.getElem?_set] at hc
        by_cases hij : i = j
        · subst hij
          by_cases hlt : i < w.children.length <;> simp [hlt] at hc
        · simp [hij] at hc
          exact h.cd j s hc
      · intros; exact Or.inl rfl
    · exact h
  | sigchld => exact { h with notif := fun _ _ _ _ => Or.inl rfl }
  | hRead =>
    simp only [event]
    split
    · exact { h with notif := fun _ _ _ _ => Or.inr (Or.inl (by simp)) }
    · exact h
  | hWrite =>
    simp only [event]
    split
    · refine { h with notif := ?_, sp := ?_ }
      · intro i st hi hc
        by_cases hw : w.sigW = true
        · right; right; simp [hw]
        · have := h.noneLeft (by simpa using hw) i _ hc
          simp [Child.alive] at this
      · have h1 := h.sp
        have h2 := h.rs
        simp only [h1]
        cases hr : w.rSig <;> cases hw : w.sigW <;> simp_all
    · exact h

theorem events_live {k} (l : List Ev) {w} (h : Live k w) : Live k (events w l) := by
  induction l generalizing w with
  | nil => exact h
  | cons e l ih => exact ih (event_live h e)

theorem sched_live {k w} (h : Live k w) (r : List Step) : Live k { w with sched := r } := { h with }

theorem tick_live {k w} (h : Live k w) : Live k (tick w) := by
  simp only [tick]
  split
  · exact h
  · exact events_live _ (sched_live h _)
  · exact sched_live h _

/-! What an event does not touch. -/
theorem event_frame (w : W) (e : Ev) : (event w e).fork = w.fork ∧ (event w e).children.length = w.children.length ∧ (event w e).rSig = w.rSig ∧
    (event w e).sigW = w.sigW ∧ (event w e).setSig = w.setSig ∧ (event w e).pipesLeft = w.pipesLeft ∧ (event w e).commandsLeft = w.commandsLeft ∧
    (event w e).state = w.state ∧ (event w e).killed = w.killed ∧ (event w e).timeoutExpired = w.timeoutExpired ∧ (event w e).selectError = w.selectError ∧
    (event w e).codes = w.codes ∧ (event w e).sched = w.sched ∧ (∀ p, ((event w e).stream p).rOpen = (w.stream p).rOpen ∧ ((event w e).stream p).inSet = (w.stream p).inSet) := by
  cases e with
  | write p b =>
    simp only [event]; split
    · cases p <;> simp [W.setStream] <;> intro q <;> cases q <;> simp [W.stream]
    · simp
  | close p => cases p <;> simp [event, W.setStream] <;> intro q <;> cases q <;> simp [W.stream]
  | exit i st => simp only [event]; split <;> simp <;> intro q <;> cases q <;> simp [W.stream]
  | sigchld => simp [event]; intro q; cases q <;> simp [W.stream]
  | hRead => simp only [event]; split <;> simp <;> intro q <;> cases q <;> simp [W.stream]
  | hWrite => simp only [event]; split <;> simp <;> intro q <;> cases q <;> simp [W.stream]

theorem events_frame (l : List Ev) (w : W) : (events w l).fork = w.fork ∧ (events w l).children.length = w.children.length ∧ (events w l).rSig = w.rSig ∧
    (events w l).sigW = w.sigW ∧ (events w l).setSig = w.setSig ∧ (events w l).pipesLeft = w.pipesLeft ∧ (events w l).commandsLeft = w.commandsLeft ∧
    (events w l).state = w.state ∧ (events w l).killed = w.killed ∧ (events w l).timeoutExpired = w.timeoutExpired ∧ (events w l).selectError = w.selectError ∧
    (events w l).codes = w.codes ∧ (events w l).sched = w.sched ∧ (∀ p, ((events w l).stream p).rOpen = (w.stream p).rOpen ∧ ((events w l).stream p).inSet = (w.stream p).inSet) := by
  induction l generalizing w with
  | nil => simp [events]
  | cons e l ih =>
    have h1 := ih (event w e)
    have h2 := event_frame w e
    have hh : events w (e :: l) = events (event w e) l := rfl
    rw [hh]
    obtain ⟨a1, a2, a3, a4, a5, a6, a7, a8, a9, a10, a11, a12, a13, a14⟩ := h1
    obtain ⟨b1, b2, b3, b4, b5, b6, b7, b8, b9, b10, b11, b12, b13, b14⟩ := h2
    exact ⟨a1.trans b1, a2.trans b2, a3.trans b3, a4.trans b4, a5.trans b5, a6.trans b6, a7.trans b7, a8.trans b8, a9.trans b9, a10.trans b10, a11.trans b11,
      a12.trans b12, a13.trans b13, fun p => ⟨(a14 p).1.trans (b14 p).1, (a14 p).2.trans (b14 p).2⟩⟩

theorem stream_sched (w : W) (r : List Step) (p : Which) : ({ w with sched := r } : W).stream p = w.stream p := by cases p <;> rfl

theorem tick_frame (w : W) : (tick w).fork = w.fork ∧ (tick w).children.length = w.children.length ∧ (tick w).rSig = w.rSig ∧
    (tick w).sigW = w.sigW ∧ (tick w).setSig = w.setSig ∧ (tick w).pipesLeft = w.pipesLeft ∧ (tick w).commandsLeft = w.commandsLeft ∧
    (tick w).state = w.state ∧ (tick w).killed = w.killed ∧ (tick w).timeoutExpired = w.timeoutExpired ∧ (tick w).selectError = w.selectError ∧
    (tick w).codes = w.codes ∧ (∀ p, ((tick w).stream p).rOpen = (w.stream p).rOpen ∧ ((tick w).stream p).inSet = (w.stream p).inSet) := by
  simp only [tick]
  split
  · simp
  · next l r _ =>
    have h := events_frame l { w with sched := r }
    simp only [stream_sched] at h
    obtain ⟨a1, a2, a3, a4, a5, a6, a7, a8, a9, a10, a11, a12, a13, a14⟩ := h
    exact ⟨a1, a2, a3, a4, a5, a6, a7, a8, a9, a10, a11, a12, a14⟩
  · simp [stream_sched]

/-! ### `destroy` -/

theorem count_set_false (l : List Bool) (i : Nat) (h : l[i]? = some true) : (l.set i false).count true + 1 = l.count true := by
  induction l generalizing i with
  | nil => simp at h
  | cons b l ih =>
    cases i with
    | zero => simp at h; subst h; simp
    | succ i =>
      simp at h
      have := ih i h
      simp only [List.set_cons_succ, List.count_cons]
      omega

theorem reap_live {i w} (h : Live i w) (hf : w.fork[i]? = some true) : Live (i + 1) (reap w i) := by
  have hlt : i < w.children.length := by
    have := (List.getElem?_eq_some_iff.mp hf).1
    have := h.lenF; omega
  obtain ⟨c, hc⟩ : ∃ c, w.children[i]? = some c := ⟨_, List.getElem?_eq_getElem hlt⟩
  have hal := h.fk i c hc
  rw [hf] at hal
  cases c with
  | gone s => simp [Child.alive] at hal
  | running =>
    have : reap w i = w := by simp only [reap, hc]
    rw [this]
    refine { h with notif := ?_ }
    intro j s hj hz
    by_cases hji : j = i
    · subst hji; rw [hc] at hz; cases hz
    · exact h.notif j s (by omega) hz
  | zombie s =>
    have hcnt := count_set_false w.fork i hf
    have key : ∀ sw, sw = decide (0 < (w.fork.set i false).count true) → (w.sigW = false → sw = false) →
        Live (i + 1) { w with children := w.children.set i (.gone s), codes := w.codes.set i s, fork := w.fork.set i false, commandsLeft := w.commandsLeft - 1, sigW := sw } := by
      intro sw hsw hm
      refine { h with lenF := ?_, lenC := ?_, fk := ?_, cd := ?_, cl := ?_, sw := hsw, rs := ?_, notif := ?_ }
      · simpa using h.lenF
      · simpa using h.lenC
      · intro j c' hj
        simp only [List.getElem?_set] at hj ⊢
        by_cases hij : i = j
        · subst hij
          have hl2 : i < w.fork.length := by rw [h.lenF]; exact hlt
          simp [hlt] at hj
          subst hj
          simp [hl2, Child.alive]
        · simp [hij] at hj ⊢
          exact h.fk j c' hj
      · intro j s' hj
        simp only [List.getElem?_set] at hj ⊢
        by_cases hij : i = j
        · subst hij
          have hl2 : i < w.codes.length := by rw [h.lenC]; exact hlt
          simp [hlt] at hj
          subst hj
          simp [hl2]
        · simp [hij] at hj ⊢
          exact h.cd j s' hj
      · have := h.cl
        show w.commandsLeft - 1 = ((w.fork.set i false).count true : Nat)
        omega
      · intro hr; exact hm (h.rs hr)
      · intro j s' hj hz
        simp only [List.getElem?_set] at hz
        by_cases hij : i = j
        · subst hij; simp [hlt] at hz
        · simp [hij] at hz
          exact h.notif j s' (by omega) hz
    have hcl := h.cl
    have hsw0 : w.sigW = true := by rw [h.sw]; apply decide_eq_true; omega
    simp only [reap, hc]
    split
    · next h0 =>
      refine key false ?_ (fun _ => rfl)
      symm; apply decide_eq_false; omega
    · next h0 =>
      have := key w.sigW (by rw [hsw0]; symm; apply decide_eq_true; omega) (fun h => h)
      exact this

theorem destroyFrom_live (k : Nat) {i w} (h : Live i w) : Live (i + k) (destroyFrom w i k) := by
  induction k generalizing i w with
  | zero => exact h
  | succ k ih =>
    simp only [destroyFrom]
    have : i + (k + 1) = (i + 1) + k := by omega
    rw [this]
    apply ih
    split
    · next hf => exact reap_live (tick_live h) (by rw [(tick_frame w).1]; exact hf)
    · next hf =>
      refine { h with notif := ?_ }
      intro j s hj hz
      by_cases hji : j = i
      · subst hji
        have := h.fk j _ hz
        exact absurd this hf
      · exact h.notif j s (by omega) hz

theorem reap_frame (w : W) (i : Nat) : (reap w i).children.length = w.children.length ∧ (reap w i).rSig = w.rSig ∧ (reap w i).out = w.out ∧
    (reap w i).err = w.err ∧ (reap w i).setSig = w.setSig ∧ (reap w i).sched = w.sched ∧ (reap w i).sigBytes = w.sigBytes := by
  simp only [reap]
  split
  · split <;> simp
  · simp
  · split <;> simp

theorem destroyFrom_len (k : Nat) (w : W) (i : Nat) : (destroyFrom w i k).children.length = w.children.length := by
  induction k generalizing w i with
  | zero => rfl
  | succ k ih =>
    simp only [destroyFrom, ih]
    split
    · rw [(reap_frame _ _).1, (tick_frame w).2.1]
    · rfl

theorem destroy_live {k w} (h : Live k w) (b : Nat) : Live w.children.length (destroy { w with sigBytes := b }) := by
  have h0 : Live 0 { w with sigBytes := b } := { h with notif := fun i st hi => absurd hi (by omega) }
  have := destroyFrom_live w.children.length h0
  simpa [destroy] using this

/-! ### One turn of the loop -/

theorem setStream_live {k w} (h : Live k w) (p : Which) (s : Stream) (h1 : s.rOpen = (w.stream p).rOpen)
    (h2 : s.rOpen = false → s.content = [] ∧ s.wopen = false) : Live k (w.setStream p s) := by
  have hs := h.str
  have hp := h.pl
  have hs1 := hs .out; have hs2 := hs .err
  cases p
  · refine { h with str := ?_, pl := ?_ }
    · intro q hq; cases q
      · simp only [W.setStream, stream_out] at hq ⊢; exact h2 hq
      · simp only [W.setStream, stream_err] at hq ⊢; exact hs2 hq
    · simp only [stream_out] at h1; simp only [W.setStream, h1]; exact hp
  · refine { h with str := ?_, pl := ?_ }
    · intro q hq; cases q
      · simp only [W.setStream, stream_out] at hq ⊢; exact hs1 hq
      · simp only [W.setStream, stream_err] at hq ⊢; exact h2 hq
    · simp only [stream_err] at h1; simp only [W.setStream, h1]; exact hp

theorem closeRead_live {k w} (h : Live k w) (p : Which) (h1 : (w.stream p).rOpen = true) (hc : (w.stream p).content = []) (hw : (w.stream p).wopen = false) :
    Live k { w.setStream p { w.stream p with rOpen := false } with pipesLeft := w.pipesLeft - 1 } := by
  have hp := h.pl
  have hs1 := h.str .out; have hs2 := h.str .err
  cases p
  · simp only [stream_out] at h1 hc hw
    refine { h with str := ?_, pl := ?_ }
    · intro q hq; cases q
      · simp only [W.setStream, stream_out]; exact ⟨hc, hw⟩
      · simp only [W.setStream, stream_err] at hq ⊢; exact hs2 hq
    · simp only [W.setStream]; rw [hp, h1]; simp; omega
  · simp only [stream_err] at h1 hc hw
    refine { h with str := ?_, pl := ?_ }
    · intro q hq; cases q
      · simp only [W.setStream, stream_out] at hq ⊢; exact hs1 hq
      · simp only [W.setStream, stream_err]; exact ⟨hc, hw⟩
    · simp only [W.setStream]; rw [hp, h1]; simp; omega

theorem stream_setStream (w : W) (p : Which) (s : Stream) : (w.setStream p s).stream p = s := by cases p <;> rfl

theorem inSet_live {k w} (h : Live k w) (p : Which) : Live k (w.setStream p { w.stream p with inSet := false }) :=
  setStream_live h p _ rfl (h.str p)

/-- the state in which the pipe is read -/
theorem read_live {k w} (h : Live k w) (p : Which) : Live k (tick (w.setStream p { w.stream p with inSet := false })) := tick_live (inSet_live h p)

theorem read_rOpen (w : W) (p : Which) : ((tick (w.setStream p { w.stream p with inSet := false })).stream p).rOpen = (w.stream p).rOpen := by
  rw [((tick_frame _).2.2.2.2.2.2.2.2.2.2.2.2 p).1, stream_setStream]

theorem handleStream_live {k w} (h : Live k w) (p : Which) (data : Bool) : Live k (handleStream w p data).1 := by
  simp only [handleStream]
  split
  · next ho =>
    have ho1 : (w.stream p).rOpen = true := by simp at ho; exact ho.1
    have hr := read_rOpen w p
    rw [ho1] at hr
    have hl := read_live h p
    generalize tick (w.setStream p { w.stream p with inSet := false }) = w1 at hr hl ⊢
    split
    · exact setStream_live hl p _ rfl (fun hf => by simp [hr] at hf)
    · next hc =>
      split
      · exact hl
      · next hw => exact closeRead_live hl p hr (by simpa using hc) (by simpa using hw)
  · exact h

theorem setSig_live {k w} (h : Live k w) (b : Bool) : Live k { w with setSig := b } := { h with }

theorem handleSig_live {w} (h : Live w.children.length w) : Live w.children.length (handleSig w) := by
  simp only [handleSig]
  split
  · next ho =>
    have ho1 : w.rSig = true := by simp at ho; exact ho.1
    have hl := tick_live (setSig_live h false)
    have hf := tick_frame { w with setSig := false }
    have hr : (tick { w with setSig := false }).rSig = true := by rw [hf.2.2.1]; exact ho1
    have hlen : (tick { w with setSig := false }).children.length = w.children.length := hf.2.1
    generalize tick { w with setSig := false } = w1 at hl hr hlen ⊢
    split
    · have := destroy_live hl (w1.sigBytes - 1024)
      rwa [hlen] at this
    · split
      · exact hl
      · next hsw =>
        have hp := hl.pl
        refine { hl with rs := ?_, pl := ?_ }
        · intro _; simpa using hsw
        · show w1.pipesLeft - 1 = _; rw [hp, hr]; simp
  · exact h

theorem handleSig_len (w : W) : (handleSig w).children.length = w.children.length := by
  simp only [handleSig]
  split
  · have hlen : (tick { w with setSig := false }).children.length = w.children.length := (tick_frame { w with setSig := false }).2.1
    split
    · simp only [destroy, destroyFrom_len]; exact hlen
    · split <;> exact hlen
  · rfl

theorem handleStream_len (w : W) (p : Which) (data : Bool) : (handleStream w p data).1.children.length = w.children.length := by
  have h1 : ∀ (w : W) s, (w.setStream p s).children = w.children := by intro w s; cases p <;> rfl
  simp only [handleStream]
  split
  · have := (tick_frame (w.setStream p { w.stream p with inSet := false })).2.1
    split
    · simp only [h1]; rw [this, h1]
    · split
      · rw [this, h1]
      · simp only [h1]; rw [this, h1]
  · rfl

/-- only the set changes -/
def setSet (w : W) (a b c : Bool) : W :=
  { w with out := { w.out with inSet := a }, err := { w.err with inSet := b }, setSig := c }

theorem setSet_live {k w} (h : Live k w) (a b c : Bool) : Live k (setSet w a b c) := by
  have hs1 := h.str .out; have hs2 := h.str .err
  exact { h with str := fun q hq => by cases q <;> simp_all [setSet, W.stream] }

theorem ready_eq (w : W) : w.ready = setSet w w.out.ready w.err.ready w.sigReady := rfl

/-- What `select` gives. -/
def Sel.w : Sel → W
  | .ready w => w | .expired _ w => w | .error w => w | .hang w => w

theorem select_live {k} (l : List Step) {w} (h : Live k w) : Live k (select w l).w := by
  induction l generalizing w with
  | nil =>
    simp only [select]; split
    · exact setSet_live h _ _ _
    · exact h
  | cons e l ih =>
    cases e with
    | evs ev =>
      simp only [select]; split
      · exact setSet_live h _ _ _
      · exact ih (events_live _ (sched_live h _))
    | timeout u =>
      simp only [select]; split
      · exact setSet_live h _ _ _
      · exact sched_live h _
    | error =>
      simp only [select]; split
      · exact setSet_live h _ _ _
      · exact sched_live h _

theorem select_len (l : List Step) (w : W) : (select w l).w.children.length = w.children.length := by
  induction l generalizing w with
  | nil => simp only [select]; split <;> rfl
  | cons e l ih =>
    cases e with
    | evs ev =>
      simp only [select]; split
      · rfl
      · rw [ih, (events_frame _ _).2.1]
    | timeout u => simp only [select]; split <;> rfl
    | error => simp only [select]; split <;> rfl

theorem select_hang (l : List Step) (w : W) (w' : W) (h : select w l = .hang w') : w'.anyReady = false := by
  induction l generalizing w with
  | nil =>
    simp only [select] at h; split at h
    · cases h
    · cases h; simp_all
  | cons e l ih =>
    cases e with
    | evs ev =>
      simp only [select] at h; split at h
      · cases h
      · exact ih _ h
    | timeout u => simp only [select] at h; split at h <;> cases h
    | error => simp only [select] at h; split at h <;> cases h

/-! ### `Kill` -/

/-- While `Kill` is at work: the commands below `j` are killed and reaped. -/
structure Mid (j : Nat) (w : W) : Prop where
  lenF : w.fork.length = w.children.length
  dn : ∀ (i : Nat) (c : Child), i < j → w.children[i]? = some c → c.alive = false
  fk : ∀ (i : Nat) (c : Child), j ≤ i → w.children[i]? = some c → w.fork[i]? = some c.alive
  sg : w.sigW = false
  sp : w.sigpipe = false
  st : w.stray = 0
  ex : w.state = .executing
  pl : w.pipesLeft = ((w.out.rOpen.toNat + w.err.rOpen.toNat + w.rSig.toNat : Nat) : Int)

theorem event_alive (w : W) (e : Ev) (i : Nat) (c : Child) (h : (event w e).children[i]? = some c) :
    ∃ c', w.children[i]? = some c' ∧ c'.alive = c.alive := by
  cases e with
  | exit j st =>
    simp only [event] at h
    split at h
    · next hr =>
      simp only [List.getElem?_set] at h
      by_cases hij : j = i
      · subst hij
        have hlt : j < w.children.length := (List.getElem?_eq_some_iff.mp hr).1
        simp [hlt] at h
        subst h
        exact ⟨_, hr, rfl⟩
      · simp [hij] at h; exact ⟨c, h, rfl⟩
    · exact ⟨c, h, rfl⟩
  | write p b =>
    simp only [event] at h
    split at h
    · cases p <;> exact ⟨c, h, rfl⟩
    · exact ⟨c, h, rfl⟩
  | close p => cases p <;> exact ⟨c, h, rfl⟩
  | sigchld => exact ⟨c, h, rfl⟩
  | hRead => simp only [event] at h; split at h <;> exact ⟨c, h, rfl⟩
  | hWrite => simp only [event] at h; split at h <;> exact ⟨c, h, rfl⟩

theorem event_sigpipe (w : W) (e : Ev) (h : w.sigW = false) : (event w e).sigpipe = w.sigpipe := by
  cases e with
  | write p b => simp only [event]; split <;> cases p <;> rfl
  | close p => cases p <;> rfl
  | exit i st => simp only [event]; split <;> rfl
  | sigchld => rfl
  | hRead => simp only [event]; split <;> rfl
  | hWrite => simp only [event]; split <;> simp [h]

theorem event_stray (w : W) (e : Ev) : (event w e).stray = w.stray := by
  cases e with
  | write p b => simp only [event]; split <;> cases p <;> rfl
  | close p => cases p <;> rfl
  | exit i st => simp only [event]; split <;> rfl
  | sigchld => rfl
  | hRead => simp only [event]; split <;> rfl
  | hWrite => simp only [event]; split <;> rfl

theorem event_mid {j w} (h : Mid j w) (e : Ev) : Mid j (event w e) := by
  obtain ⟨b1, b2, b3, b4, b5, b6, b7, b8, b9, b10, b11, b12, b13, b14⟩ := event_frame w e
  refine ⟨?_, ?_, ?_, ?_, ?_, ?_, ?_, ?_⟩
  · rw [b1, b2]; exact h.lenF
  · intro i c hi hc
    obtain ⟨c', h1, h2⟩ := event_alive w e i c hc
    rw [← h2]; exact h.dn i c' hi h1
  · intro i c hi hc
    obtain ⟨c', h1, h2⟩ := event_alive w e i c hc
    rw [b1, ← h2]; exact h.fk i c' hi h1
  · rw [b4]; exact h.sg
  · rw [event_sigpipe w e h.sg]; exact h.sp
  · rw [event_stray]; exact h.st
  · rw [b8]; exact h.ex
  · have h1 := (b14 .out).1; have h2 := (b14 .err).1
    simp only [stream_out, stream_err] at h1 h2
    rw [b6, h1, h2, b3]; exact h.pl

theorem events_mid {j} (l : List Ev) {w} (h : Mid j w) : Mid j (events w l) := by
  induction l generalizing w with
  | nil => exact h
  | cons e l ih => exact ih (event_mid h e)

theorem tick_mid {j w} (h : Mid j w) : Mid j (tick w) := by
  simp only [tick]
  split
  · exact h
  · exact events_mid _ { h with }
  · exact { h with }

theorem setStream_mid {j w} (h : Mid j w) (p : Which) (s : Stream) (h1 : s.rOpen = (w.stream p).rOpen) : Mid j (w.setStream p s) := by
  cases p
  · exact { h with pl := by simp only [stream_out] at h1; simp only [W.setStream, h1]; exact h.pl }
  · exact { h with pl := by simp only [stream_err] at h1; simp only [W.setStream, h1]; exact h.pl }

theorem closeStream_mid {j w} (h : Mid j w) (p : Which) : Mid j (closeStream w p) ∧ ((closeStream w p).stream p).rOpen = false ∧
    (∀ q, q ≠ p → ((closeStream w p).stream q).rOpen = (w.stream q).rOpen) := by
  have fin : ∀ w1 : W, Mid j w1 → (w1.stream p).rOpen = true → (∀ q, (w1.stream q).rOpen = (w.stream q).rOpen) →
      (let w2 : W := { w1.setStream p { w1.stream p with rOpen := false } with pipesLeft := w1.pipesLeft - 1 };
       Mid j w2 ∧ (w2.stream p).rOpen = false ∧ (∀ q, q ≠ p → (w2.stream q).rOpen = (w.stream q).rOpen)) := by
    intro w1 hm ho hq
    have hp := hm.pl
    have q1 := hq .out; have q2 := hq .err
    cases p
    · simp only [stream_out] at ho
      refine ⟨{ hm with pl := ?_ }, rfl, ?_⟩
      · simp only [W.setStream]; rw [hp, ho]; simp; omega
      · intro q hne; cases q
        · exact absurd rfl hne
        · exact q2
    · simp only [stream_err] at ho
      refine ⟨{ hm with pl := ?_ }, rfl, ?_⟩
      · simp only [W.setStream]; rw [hp, ho]; simp; omega
      · intro q hne; cases q
        · exact q1
        · exact absurd rfl hne
  have sq : ∀ (w : W) (s : Stream) q, s.rOpen = (w.stream p).rOpen → ((w.setStream p s).stream q).rOpen = (w.stream q).rOpen := by
    intro w s q hs; cases p <;> cases q <;> simp_all [W.setStream, W.stream]
  simp only [closeStream]
  split
  · next ho =>
    split
    · have hl := tick_mid (setStream_mid h p { w.stream p with inSet := false } rfl)
      have hf := (tick_frame (w.setStream p { w.stream p with inSet := false })).2.2.2.2.2.2.2.2.2.2.2.2
      have hf' : ∀ q, ((tick (w.setStream p { w.stream p with inSet := false })).stream q).rOpen = (w.stream q).rOpen := by
        intro q; rw [(hf q).1]; exact sq w _ q rfl
      generalize tick (w.setStream p { w.stream p with inSet := false }) = w0 at hl hf' ⊢
      have hq' : ∀ q, ((w0.setStream p { w0.stream p with content := (w0.stream p).content.drop 1024 }).stream q).rOpen = (w.stream q).rOpen := by
        intro q; exact (sq w0 { w0.stream p with content := (w0.stream p).content.drop 1024 } q rfl).trans (hf' q)
      exact fin _ (setStream_mid hl p _ rfl) ((hq' p).trans ho) hq'
    · exact fin w h ho (fun _ => rfl)
  · next ho => exact ⟨h, by simpa using ho, fun _ _ => rfl⟩

theorem closeSig_mid {j w} (h : Mid j w) : Mid j (closeSig w) ∧ (closeSig w).rSig = false ∧ (closeSig w).out.rOpen = w.out.rOpen ∧ (closeSig w).err.rOpen = w.err.rOpen := by
  have fin : ∀ w1 : W, Mid j w1 → w1.rSig = true → Mid j { w1 with rSig := false, pipesLeft := w1.pipesLeft - 1 } := by
    intro w1 hm hr
    have hp := hm.pl
    exact { hm with pl := by show w1.pipesLeft - 1 = _; rw [hp, hr]; simp }
  simp only [closeSig]
  split
  · next hr =>
    split
    · have hl : Mid j (tick { w with setSig := false }) := tick_mid { h with }
      have hf := tick_frame { w with setSig := false }
      have hr1 := hf.2.2.1.trans hr
      have ho := (hf.2.2.2.2.2.2.2.2.2.2.2.2 .out).1
      have he := (hf.2.2.2.2.2.2.2.2.2.2.2.2 .err).1
      generalize tick { w with setSig := false } = w0 at hl hr1 ho he ⊢
      generalize w0.sigBytes - 1024 = nb
      exact ⟨fin { w0 with sigBytes := nb } { hl with } hr1, rfl, ho, he⟩
    · exact ⟨fin w h hr, rfl, rfl, rfl⟩
  · next hr => exact ⟨h, by simpa using hr, rfl, rfl⟩

/-- every read end is closed -/
def Shut (w : W) : Prop := w.out.rOpen = false ∧ w.err.rOpen = false ∧ w.rSig = false

theorem closePipes_mid {j w} (h : Mid j w) : Mid j (closePipes w) ∧ Shut (closePipes w) := by
  obtain ⟨m1, a1, _⟩ := closeStream_mid h .out
  obtain ⟨m2, a2, b2⟩ := closeStream_mid m1 .err
  obtain ⟨m3, a3, b3, c3⟩ := closeSig_mid m2
  refine ⟨m3, ?_, ?_, a3⟩
  · exact b3.trans ((b2 .out (by decide)).trans a1)
  · exact c3.trans a2

theorem tick_shut {w} (h : Shut w) : Shut (tick w) := by
  have hf := tick_frame w
  have ho := (hf.2.2.2.2.2.2.2.2.2.2.2.2 .out).1
  have he := (hf.2.2.2.2.2.2.2.2.2.2.2.2 .err).1
  exact ⟨ho.trans h.1, he.trans h.2.1, hf.2.2.1.trans h.2.2⟩

theorem killOne_shut {w} (h : Shut w) (i : Nat) : Shut (killOne w i) := by
  have := tick_shut h
  simp only [killOne]
  split <;> exact this

theorem killFrom_shut (k : Nat) {w} (h : Shut w) (i : Nat) : Shut (killFrom w i k) := by
  induction k generalizing w i with
  | zero => exact h
  | succ k ih =>
    simp only [killFrom]
    apply ih
    split
    · exact killOne_shut h i
    · exact h

theorem killOne_mid {i w} (h : Mid i w) (hf : w.fork[i]? = some true) : Mid (i + 1) (killOne w i) := by
  have hm := tick_mid h
  have hf1 : (tick w).fork[i]? = some true := by rw [(tick_frame w).1]; exact hf
  simp only [killOne]
  generalize tick w = w1 at hm hf1 ⊢
  have hlt : i < w1.children.length := by
    have := (List.getElem?_eq_some_iff.mp hf1).1
    have := hm.lenF; omega
  have key : ∀ st pd, Mid (i + 1) { w1 with children := w1.children.set i (.gone st), pending := pd } := by
    intro st pd
    refine { hm with lenF := ?_, dn := ?_, fk := ?_ }
    · simpa using hm.lenF
    · intro j c hj hc
      simp only [List.getElem?_set] at hc
      by_cases hij : i = j
      · subst hij; simp [hlt] at hc; subst hc; rfl
      · simp [hij] at hc; exact hm.dn j c (by omega) hc
    · intro j c hj hc
      simp only [List.getElem?_set] at hc
      by_cases hij : i = j
      · omega
      · simp [hij] at hc; exact hm.fk j c (by omega) hc
  split
  · exact key 9 true
  · next st _ => exact key st w1.pending
  · next hn1 hn2 =>
    exfalso
    have hc : w1.children[i]? = some w1.children[i] := List.getElem?_eq_getElem hlt
    have := hm.fk i _ (Nat.le_refl _) hc
    rw [hf1] at this
    cases hcc : w1.children[i] with
    | running => exact hn1 (by rw [hc, hcc])
    | zombie st => exact hn2 st (by rw [hc, hcc])
    | gone st => rw [hcc] at this; simp [Child.alive] at this

theorem killFrom_mid (k : Nat) {i w} (h : Mid i w) : Mid (i + k) (killFrom w i k) := by
  induction k generalizing i w with
  | zero => exact h
  | succ k ih =>
    simp only [killFrom]
    have : i + (k + 1) = (i + 1) + k := by omega
    rw [this]
    apply ih
    split
    · next hf => exact killOne_mid h hf
    · next hf =>
      refine { h with dn := ?_, fk := fun j c hj => h.fk j c (by omega) }
      intro j c hj hc
      by_cases hji : j = i
      · subst hji
        have := h.fk j c (Nat.le_refl _) hc
        cases hb : c.alive with
        | false => rfl
        | true => rw [hb] at this; exact absurd this hf
      · exact h.dn j c (by omega) hc

/-- After `Kill`: everything closed, every child reaped. -/
structure Dead (w : W) : Prop where
  gone : ∀ (i : Nat) (c : Child), w.children[i]? = some c → c.alive = false
  shut : Shut w
  sg : w.sigW = false
  sp : w.sigpipe = false
  ex : w.state = .executing
  pl : w.pipesLeft = 0
  why : w.killed = true ∨ w.timeoutExpired = true ∨ w.selectError = true

theorem killFrom_frame (k : Nat) (w : W) (i : Nat) : (killFrom w i k).killed = w.killed ∧ (killFrom w i k).timeoutExpired = w.timeoutExpired ∧
    (killFrom w i k).selectError = w.selectError ∧ (killFrom w i k).state = w.state ∧ (killFrom w i k).children.length = w.children.length ∧
    (killFrom w i k).pipesLeft = w.pipesLeft ∧ (killFrom w i k).sigW = w.sigW ∧ (killFrom w i k).codes = w.codes := by
  induction k generalizing w i with
  | zero => simp [killFrom]
  | succ k ih =>
    have h1 : ∀ w : W, (killOne w i).killed = w.killed ∧ (killOne w i).timeoutExpired = w.timeoutExpired ∧ (killOne w i).selectError = w.selectError ∧
        (killOne w i).state = w.state ∧ (killOne w i).children.length = w.children.length ∧ (killOne w i).pipesLeft = w.pipesLeft ∧ (killOne w i).sigW = w.sigW ∧
        (killOne w i).codes = w.codes := by
      intro w
      obtain ⟨a1, a2, a3, a4, a5, a6, a7, a8, a9, a10, a11, a12, a13⟩ := tick_frame w
      simp only [killOne]
      split <;> simp [a2, a4, a6, a8, a9, a10, a11, a12]
    simp only [killFrom]
    obtain ⟨a1, a2, a3, a4, a5, a6, a7, a8⟩ := ih (if w.fork[i]? = some true then killOne w i else w) (i + 1)
    rw [a1, a2, a3, a4, a5, a6, a7, a8]
    split
    · exact h1 w
    · simp

/-- the state in which the children are killed -/
def killPrep (w : W) : W := { closePipes { w with sigW := false } with killed := true }

theorem kill_eq {w} (h : w.state = .executing) : kill w = { killFrom (killPrep w) 0 (killPrep w).fork.length with commandsLeft := 0 } := by
  simp [kill, killPrep, h]

theorem live_mid {k w} (h : Live k w) : Mid 0 { w with sigW := false } :=
  { lenF := h.lenF, dn := fun _ _ hi => absurd hi (by omega), fk := fun i c _ => h.fk i c, sg := rfl, sp := h.sp, st := h.st, ex := h.ex, pl := h.pl }

theorem kill_live {k w} (h : Live k w) : Dead (kill w) ∧ (kill w).stray = 0 ∧ (kill w).killed = true := by
  rw [kill_eq h.ex]
  obtain ⟨hm, hs⟩ := closePipes_mid (live_mid h)
  have hm' : Mid 0 (killPrep w) := { hm with }
  have hs' : Shut (killPrep w) := hs
  have h1 := killFrom_mid (killPrep w).fork.length hm'
  have h2 := killFrom_shut (killPrep w).fork.length hs' 0
  obtain ⟨a1, a2, a3, a4, a5, a6, a7, a8⟩ := killFrom_frame (killPrep w).fork.length (killPrep w) 0
  have hk : (killFrom (killPrep w) 0 (killPrep w).fork.length).killed = true := by rw [a1]; rfl
  refine ⟨⟨?_, h2, h1.sg, h1.sp, h1.ex, ?_, Or.inl hk⟩, h1.st, hk⟩
  · intro i c hc
    refine h1.dn i c ?_ hc
    have : i < (killFrom (killPrep w) 0 (killPrep w).fork.length).children.length := (List.getElem?_eq_some_iff.mp hc).1
    rw [a5] at this
    have := hm'.lenF
    omega
  · have := h1.pl
    obtain ⟨s1, s2, s3⟩ := h2
    rw [s1, s2, s3] at this
    simpa using this

theorem setStream_children (w : W) (p : Which) (s : Stream) : (w.setStream p s).children = w.children := by cases p <;> rfl

theorem closeStream_len (w : W) (p : Which) : (closeStream w p).children.length = w.children.length := by
  simp only [closeStream]
  split
  · split
    · simp only [setStream_children]; rw [(tick_frame _).2.1, setStream_children]
    · simp only [setStream_children]
  · rfl

theorem closeSig_len (w : W) : (closeSig w).children.length = w.children.length := by
  simp only [closeSig]
  split
  · split
    · exact (tick_frame { w with setSig := false }).2.1
    · rfl
  · rfl

theorem kill_len (w : W) : (kill w).children.length = w.children.length := by
  simp only [kill]
  split
  · rfl
  · refine (killFrom_frame _ _ _).2.2.2.2.1.trans ?_
    show (closePipes { w with sigW := false }).children.length = _
    simp only [closePipes, closeSig_len, closeStream_len]

/-- the object with `n` commands is executing -/
def L (n : Nat) (w : W) : Prop := Live n w ∧ w.children.length = n
/-- the object with `n` commands was killed -/
def D (n : Nat) (w : W) : Prop := Dead w ∧ w.children.length = n

theorem handleStream_L {n w} (h : L n w) (p data) : L n (handleStream w p data).1 := ⟨handleStream_live h.1 p data, (handleStream_len w p data).trans h.2⟩

theorem handleSig_L {n w} (h : L n w) : L n (handleSig w) := by
  obtain ⟨h1, h2⟩ := h
  subst h2
  exact ⟨handleSig_live h1, handleSig_len w⟩

theorem setSet_L {n w} (h : L n w) (a b c) : L n (setSet w a b c) := ⟨setSet_live h.1 a b c, h.2⟩

theorem kill_L {n w} (h : L n w) : D n (kill w) ∧ (kill w).stray = 0 := ⟨⟨(kill_live h.1).1, (kill_len w).trans h.2⟩, (kill_live h.1).2.1⟩

/-- the object was killed because `select` failed -/
def Failed (n : Nat) (w : W) : Prop := D n w ∧ w.stray = 0 ∧ w.selectError = true ∧ w.killed = false ∧ w.timeoutExpired = false

theorem dead_kd {w} (h : Dead w) (k t s : Bool) (hw : k = true ∨ t = true ∨ s = true) : Dead { w with killed := k, timeoutExpired := t, selectError := s } :=
  { h with why := hw }

theorem setStream_kd (w : W) (p : Which) (s : Stream) : (w.setStream p s).timeoutExpired = w.timeoutExpired ∧ (w.setStream p s).selectError = w.selectError ∧
    (w.setStream p s).state = w.state := by cases p <;> exact ⟨rfl, rfl, rfl⟩

theorem closeStream_kd (w : W) (p : Which) : (closeStream w p).timeoutExpired = w.timeoutExpired ∧ (closeStream w p).selectError = w.selectError ∧ (closeStream w p).state = w.state := by
  obtain ⟨a1, a2, a3, a4, a5, a6, a7, a8, a9, a10, a11, a12, a13⟩ := tick_frame (w.setStream p { w.stream p with inSet := false })
  have hk := setStream_kd
  simp only [closeStream]
  split
  · split
    · simp only [hk, a10, a11, a8]; simp
    · simp only [hk]; simp
  · simp

theorem closeSig_kd (w : W) : (closeSig w).timeoutExpired = w.timeoutExpired ∧ (closeSig w).selectError = w.selectError ∧ (closeSig w).state = w.state := by
  obtain ⟨a1, a2, a3, a4, a5, a6, a7, a8, a9, a10, a11, a12, a13⟩ := tick_frame { w with setSig := false }
  simp only [closeSig]
  split
  · split
    · exact ⟨a10, a11, a8⟩
    · simp
  · simp

theorem kill_kd (w : W) : (kill w).timeoutExpired = w.timeoutExpired ∧ (kill w).selectError = w.selectError := by
  simp only [kill]
  split
  · simp
  · have h1 := killFrom_frame (closePipes { w with sigW := false }).fork.length { closePipes { w with sigW := false } with killed := true } 0
    refine ⟨h1.2.1.trans ?_, h1.2.2.1.trans ?_⟩
    · show (closePipes { w with sigW := false }).timeoutExpired = _
      simp only [closePipes, closeSig_kd, closeStream_kd]
    · show (closePipes { w with sigW := false }).selectError = _
      simp only [closePipes, closeSig_kd, closeStream_kd]

theorem select_frame (l : List Step) (w : W) : (select w l).w.out.rOpen = w.out.rOpen ∧ (select w l).w.err.rOpen = w.err.rOpen ∧ (select w l).w.rSig = w.rSig := by
  induction l generalizing w with
  | nil => simp only [select]; split <;> simp [Sel.w, W.ready]
  | cons e l ih =>
    cases e with
    | evs ev =>
      simp only [select]; split
      · simp [Sel.w, W.ready]
      · obtain ⟨a, b, c⟩ := ih (events { w with sched := l } ev)
        have hf := events_frame ev { w with sched := l }
        have ho := (hf.2.2.2.2.2.2.2.2.2.2.2.2.2 .out).1
        have he := (hf.2.2.2.2.2.2.2.2.2.2.2.2.2 .err).1
        exact ⟨a.trans ho, b.trans he, c.trans hf.2.2.1⟩
    | timeout u => simp only [select]; split <;> simp [Sel.w, W.ready]
    | error => simp only [select]; split <;> simp [Sel.w, W.ready]

/-- What one turn gives, from an executing object. -/
def TurnOk (n : Nat) : W × PipeRes → Prop
  | (w, .data _ _) => L n w
  | (w, .expired _) => L n w
  | (w, .closed) => L n w ∧ Shut w
  | (w, .again) => L n w ∨ Failed n w
  | (w, .hang) => L n w ∧ w.anyReady = false ∧ ¬ Shut w
  | (_, .fuel) => False

theorem waitSelect_ok {n w} (h : L n w) : TurnOk n (waitSelect w) := by
  simp only [waitSelect]
  split
  · exact ⟨sched_live h.1 _, h.2⟩
  · split
    · next hs => exact ⟨h, hs⟩
    · next hs =>
      have hl : L n (select w w.sched).w := ⟨select_live w.sched h.1, (select_len w.sched w).trans h.2⟩
      have hf := select_frame w.sched w
      cases he : select w w.sched with
      | ready w1 => rw [he] at hl; exact Or.inl hl
      | expired u w1 => rw [he] at hl; exact setSet_L hl false false false
      | error w1 =>
        rw [he] at hl
        have hl2 := setSet_L hl w1.out.rOpen w1.err.rOpen w1.rSig
        obtain ⟨⟨hd, hlen⟩, hst⟩ := kill_L hl2
        have hk := kill_kd (setSet w1 w1.out.rOpen w1.err.rOpen w1.rSig)
        refine Or.inr ⟨⟨?_, hlen⟩, hst, rfl, rfl, hk.1.trans hl.1.kd.2.1⟩
        exact { hd with why := Or.inr (Or.inr rfl) }
      | hang w1 =>
        rw [he] at hl hf
        refine ⟨hl, select_hang _ _ _ he, ?_⟩
        rintro ⟨h1, h2, h3⟩
        obtain ⟨f1, f2, f3⟩ := hf
        exact hs ⟨f1.symm.trans h1, f2.symm.trans h2, f3.symm.trans h3⟩

theorem waitForPipe_ok {n w} (h : L n w) (data : Bool) : TurnOk n (waitForPipe w data) := by
  have h1 := handleStream_L h .out data
  simp only [waitForPipe]
  split
  · exact h1
  · have h2 := handleStream_L h1 .err data
    split
    · exact h2
    · exact waitSelect_ok (setSet_L (handleSig_L h2) false false false)

/-- What the loop gives. -/
def LoopOk (n : Nat) : W × PipeRes → Prop
  | (w, .data _ _) => L n w
  | (w, .expired _) => L n w
  | (w, .closed) => (L n w ∧ Shut w) ∨ Failed n w
  | (_, .again) => False
  | (w, .hang) => L n w ∧ w.anyReady = false ∧ ¬ Shut w
  | (_, .fuel) => True

theorem live_shut {n w} (h : L n w) (hp : ¬ w.pipesLeft > 0) : Shut w := by
  have := h.1.pl
  rw [this] at hp
  cases h1 : w.out.rOpen <;> cases h2 : w.err.rOpen <;> cases h3 : w.rSig <;> simp [h1, h2, h3] at hp <;> exact ⟨h1, h2, h3⟩

theorem waitLoop_ok (f : Nat) {n w} (h : L n w ∨ Failed n w) (data : Bool) : LoopOk n (waitLoop w data f) := by
  induction f generalizing w with
  | zero => trivial
  | succ f ih =>
    simp only [waitLoop]
    split
    · next hp =>
      rcases h with h | h
      · have := waitForPipe_ok h data
        cases he : waitForPipe w data with
        | mk w1 r =>
          rw [he] at this
          cases r with
          | again => exact ih this
          | closed => exact Or.inl this
          | data p b => exact this
          | expired u => exact this
          | hang => exact this
          | fuel => exact this.elim
      · rw [h.1.1.pl] at hp; exact absurd hp (by omega)
    · next hp =>
      rcases h with h | h
      · exact Or.inl ⟨h, live_shut h hp⟩
      · exact Or.inr h

/-- the object was killed because the timeout of the process expired -/
def Expired (n : Nat) (w : W) : Prop := D n w ∧ w.stray = 0 ∧ w.timeoutExpired = true ∧ w.killed = false ∧ w.selectError = false

def DataOk (n : Nat) : W × Res → Prop
  | (w, .pipe _ _) => L n w
  | (w, .timeout) => L n w
  | (w, .none) => (L n w ∧ Shut w) ∨ Failed n w ∨ Expired n w
  | (w, .hang) => L n w ∧ w.anyReady = false ∧ ¬ Shut w
  | (_, .fuel) => True

theorem waitForData_ok {n w} (h : L n w ∨ Failed n w) (data : Bool) : DataOk n (waitForData w data) := by
  have hk : w.state = .executing ∧ w.killed = false ∧ w.timeoutExpired = false := by
    rcases h with h | h
    · exact ⟨h.1.ex, h.1.kd.1, h.1.kd.2.1⟩
    · exact ⟨h.1.1.ex, h.2.2.2.1, h.2.2.2.2⟩
  have hn : ¬ (w.state ≠ .executing ∨ w.killed = true ∨ w.timeoutExpired = true) := by simp [hk]
  simp only [waitForData, hn, ↓reduceIte]
  have hl := waitLoop_ok (w.work + 2) h data
  cases he : waitLoop w data (w.work + 2) with
  | mk w1 r =>
    rw [he] at hl
    cases r with
    | data p b => exact hl
    | expired u =>
      cases u with
      | true => exact hl
      | false =>
        obtain ⟨⟨hd, hlen⟩, hst⟩ := kill_L hl
        have hkd := kill_kd w1
        exact Or.inr (Or.inr ⟨⟨{ hd with why := Or.inr (Or.inl rfl) }, hlen⟩, hst, rfl, rfl, hkd.2.trans hl.1.kd.2.2⟩)
    | closed =>
      rcases hl with hl | hl
      · exact Or.inl hl
      · exact Or.inr (Or.inl hl)
    | again => exact hl.elim
    | hang => exact hl
    | fuel => trivial

/-! ### The loop ends: the fuel is enough -/

theorem event_work (w : W) (e : Ev) : (event w e).work ≤ w.work + e.size := by
  cases e with
  | write p b =>
    simp only [event, Ev.size]; split
    · cases p <;> simp [W.setStream, W.work, W.stream] <;> omega
    · omega
  | close p => cases p <;> simp [event, W.setStream, W.work, W.stream]
  | exit i st => simp only [event]; split <;> simp [W.work]
  | sigchld => simp [event, W.work]
  | hRead =>
    simp only [event, Ev.size]; split
    · simp only [W.work]; split <;> omega
    · omega
  | hWrite =>
    simp only [event, Ev.size]; split
    · simp only [W.work]; split <;> omega
    · omega

theorem events_work (l : List Ev) (w : W) : (events w l).work ≤ w.work + (l.map Ev.size).sum := by
  induction l generalizing w with
  | nil => simp [events]
  | cons e l ih =>
    have h1 := ih (event w e)
    have h2 := event_work w e
    have : events w (e :: l) = events (event w e) l := rfl
    rw [this]
    simp only [List.map_cons, List.sum_cons]
    omega

theorem sched_work (w : W) (s : Step) (r : List Step) (h : w.sched = s :: r) : ({ w with sched := r } : W).work + s.size = w.work := by
  simp only [W.work, h, List.map_cons, List.sum_cons]; omega

theorem tick_work (w : W) : (tick w).work ≤ w.work ∧ (w.sched ≠ [] → (tick w).work < w.work) := by
  simp only [tick]
  split
  · next h => simp [h]
  · next l r h =>
    have h1 := events_work l { w with sched := r }
    have h2 := sched_work w _ r h
    simp only [Step.size] at h2
    exact ⟨by omega, fun _ => by omega⟩
  · next s r _ h =>
    have h2 := sched_work w s r h
    have : 0 < s.size := by cases s <;> simp [Step.size]
    exact ⟨by omega, fun _ => by omega⟩

theorem ready_iff (s : Stream) : s.ready = true ↔ s.rOpen = true ∧ (s.content ≠ [] ∨ s.wopen = false) := by
  simp [Stream.ready]

theorem event_ready (w : W) (e : Ev) (p : Which) (h : (w.stream p).ready = true) : ((event w e).stream p).ready = true := by
  cases e with
  | write q b =>
    simp only [event]; split
    · rw [ready_iff] at h ⊢
      obtain ⟨h1, h2⟩ := h
      by_cases hpq : p = q
      · subst hpq
        rw [stream_setStream]
        refine ⟨h1, ?_⟩
        rcases h2 with h2 | h2
        · exact Or.inl (by simp [h2])
        · exact Or.inr h2
      · cases p <;> cases q <;> first | exact absurd rfl hpq | exact ⟨h1, h2⟩
    · exact h
  | close q =>
    rw [ready_iff] at h ⊢
    simp only [event]
    obtain ⟨h1, h2⟩ := h
    by_cases hpq : p = q
    · subst hpq
      rw [stream_setStream]
      exact ⟨h1, Or.inr rfl⟩
    · cases p <;> cases q <;> first | exact absurd rfl hpq | exact ⟨h1, h2⟩
  | exit i st => simp only [event]; split <;> cases p <;> exact h
  | sigchld => cases p <;> exact h
  | hRead => simp only [event]; split <;> cases p <;> exact h
  | hWrite => simp only [event]; split <;> cases p <;> exact h

theorem events_ready (l : List Ev) (w : W) (p : Which) (h : (w.stream p).ready = true) : ((events w l).stream p).ready = true := by
  induction l generalizing w with
  | nil => exact h
  | cons e l ih => exact ih (event w e) (event_ready w e p h)

theorem tick_ready (w : W) (p : Which) (h : (w.stream p).ready = true) : ((tick w).stream p).ready = true := by
  simp only [tick]
  split
  · exact h
  · exact events_ready _ _ p (by rw [stream_sched]; exact h)
  · rw [stream_sched]; exact h

theorem setStream_work (w : W) (p : Which) (s : Stream) :
    (w.setStream p s).work + (w.stream p).content.length + (w.stream p).rOpen.toNat = w.work + s.content.length + s.rOpen.toNat := by
  cases p <;> simp [W.setStream, W.work, W.stream] <;> omega

theorem inSet_work (w : W) (p : Which) (b : Bool) : (w.setStream p { w.stream p with inSet := b }).work = w.work := by
  cases p <;> rfl

theorem drop_work (w : W) (p : Which) (h : (w.stream p).content ≠ []) : (w.setStream p { w.stream p with content := (w.stream p).content.drop 1024 }).work < w.work := by
  have hl : 0 < (w.stream p).content.length := List.length_pos_iff.mpr h
  cases p <;> simp only [W.setStream, W.work, W.stream, List.length_drop] at hl ⊢ <;> omega

theorem close_work (w : W) (p : Which) (h : (w.stream p).rOpen = true) (m : Int) :
    ({ w.setStream p { w.stream p with rOpen := false } with pipesLeft := m } : W).work < w.work := by
  cases p <;> simp only [W.setStream, W.work, W.stream] at h ⊢ <;> simp [h]

/-- what is in the set is ready -/
def Sound (w : W) : Prop := (w.out.inSet = true → w.out.ready = true) ∧ (w.err.inSet = true → w.err.ready = true) ∧ (w.setSig = true → w.sigReady = true)

theorem handleStream_work (w : W) (p : Which) (data : Bool) : (handleStream w p data).1.work ≤ w.work ∧
    ((w.stream p).ready = true → (w.stream p).inSet = true → (handleStream w p data).1.work < w.work) := by
  simp only [handleStream]
  split
  · next ho =>
    have ho1 : (w.stream p).rOpen = true := by simp at ho; exact ho.1
    have hr := read_rOpen w p
    rw [ho1] at hr
    have hw := tick_work (w.setStream p { w.stream p with inSet := false })
    rw [inSet_work] at hw
    have hrd : (w.stream p).ready = true → ((tick (w.setStream p { w.stream p with inSet := false })).stream p).ready = true := by
      intro h; apply tick_ready; rw [stream_setStream]; exact h
    generalize tick (w.setStream p { w.stream p with inSet := false }) = w1 at hr hw hrd ⊢
    split
    · next hc =>
      have hd := drop_work w1 p hc
      exact ⟨Nat.le_trans (Nat.le_of_lt hd) hw.1, fun _ _ => Nat.lt_of_lt_of_le hd hw.1⟩
    · next hc =>
      split
      · next hwo =>
        refine ⟨hw.1, fun h _ => ?_⟩
        have := hrd h
        simp [Stream.ready, hwo] at this
        exact absurd this.2 hc
      · have hd := close_work w1 p hr (w1.pipesLeft - 1)
        exact ⟨Nat.le_trans (Nat.le_of_lt hd) hw.1, fun _ _ => Nat.lt_of_lt_of_le hd hw.1⟩
  · next ho =>
    refine ⟨Nat.le_refl _, fun h1 h2 => ?_⟩
    simp [Stream.ready] at h1
    simp [h1, h2] at ho

theorem reap_work (w : W) (i : Nat) : (reap w i).work = w.work := by
  obtain ⟨a, b, c, d, e, f, g⟩ := reap_frame w i
  simp only [W.work, b, c, d, f, g]

theorem destroyFrom_work (k : Nat) (w : W) (i : Nat) : (destroyFrom w i k).work ≤ w.work := by
  induction k generalizing w i with
  | zero => exact Nat.le_refl _
  | succ k ih =>
    simp only [destroyFrom]
    refine Nat.le_trans (ih _ _) ?_
    split
    · rw [reap_work]; exact (tick_work w).1
    · exact Nat.le_refl _

theorem handleSig_work (w : W) : (handleSig w).work ≤ w.work ∧ (w.sigReady = true → w.setSig = true → (handleSig w).work < w.work) := by
  simp only [handleSig]
  split
  · next ho =>
    have ho1 : w.rSig = true := by simp at ho; exact ho.1
    have hw := tick_work { w with setSig := false }
    have hw0 : ({ w with setSig := false } : W).work = w.work := rfl
    rw [hw0] at hw
    have hr : (tick { w with setSig := false }).rSig = true := ((tick_frame { w with setSig := false }).2.2.1).trans ho1
    have hempty : w.sched = [] → tick { w with setSig := false } = { w with setSig := false } := by
      intro h; simp [tick, h]
    generalize hg : tick { w with setSig := false } = w1 at hw hr hempty ⊢
    split
    · next hb =>
      have h1 : (destroy { w1 with sigBytes := w1.sigBytes - 1024 }).work ≤ ({ w1 with sigBytes := w1.sigBytes - 1024 } : W).work := destroyFrom_work _ _ _
      have h2 : ({ w1 with sigBytes := w1.sigBytes - 1024 } : W).work + w1.sigBytes = w1.work + (w1.sigBytes - 1024) := by simp only [W.work]; omega
      exact ⟨by omega, fun _ _ => by omega⟩
    · next hb =>
      split
      · next hsw =>
        refine ⟨hw.1, fun h1 _ => ?_⟩
        by_cases hs : w.sched = []
        · have := hempty hs
          rw [this] at hb hsw
          simp [W.sigReady] at h1
          simp at hb hsw
          rcases h1.2 with h | h
          · exact absurd hb h
          · rw [hsw] at h; cases h
        · exact hw.2 hs
      · have : ({ w1 with rSig := false, pipesLeft := w1.pipesLeft - 1 } : W).work + 1 = w1.work := by simp only [W.work, hr]; simp
        exact ⟨by omega, fun _ _ => by omega⟩
  · next ho =>
    refine ⟨Nat.le_refl _, fun h1 h2 => ?_⟩
    simp [W.sigReady] at h1
    simp [h1, h2] at ho

def SomeSet (w : W) : Prop := w.out.inSet = true ∨ w.err.inSet = true ∨ w.setSig = true

theorem handleStream_other (w : W) (data : Bool) (h : w.out.inSet = false) : (handleStream w .out data).1 = w := by
  simp [handleStream, h]

theorem handleStream_otherErr (w : W) (data : Bool) (h : w.err.inSet = false) : (handleStream w .err data).1 = w := by
  simp [handleStream, h]

theorem select_work (l : List Step) (w : W) (hl : w.sched = l) (w' : W) (h : select w l = .ready w') : w'.work ≤ w.work ∧ Sound w' ∧ SomeSet w' := by
  have base : ∀ w : W, w.anyReady = true → w.ready.work ≤ w.work ∧ Sound w.ready ∧ SomeSet w.ready := by
    intro w ha
    refine ⟨Nat.le_refl _, ⟨?_, ?_, ?_⟩, ?_⟩
    · simp [W.ready, Stream.ready]
    · simp [W.ready, Stream.ready]
    · simp [W.ready, W.sigReady]
    · simp only [W.anyReady, Bool.or_eq_true] at ha
      simp only [SomeSet, W.ready]
      tauto
  induction l generalizing w with
  | nil =>
    simp only [select] at h; split at h
    · next ha => cases h; exact base w ha
    · cases h
  | cons e l ih =>
    cases e with
    | evs ev =>
      simp only [select] at h; split at h
      · next ha => cases h; exact base w ha
      · have hf := (events_frame ev { w with sched := l }).2.2.2.2.2.2.2.2.2.2.2.2.1
        obtain ⟨h1, h2, h3⟩ := ih _ hf h
        have h4 := events_work ev { w with sched := l }
        have h5 := sched_work w _ l hl
        simp only [Step.size] at h5
        exact ⟨by omega, h2, h3⟩
    | timeout u =>
      simp only [select] at h; split at h
      · next ha => cases h; exact base w ha
      · cases h
    | error =>
      simp only [select] at h; split at h
      · next ha => cases h; exact base w ha
      · cases h

/-- one turn that says `again` -/
theorem waitSelect_again {n w w'} (h : L n w) (he : waitSelect w = (w', .again)) : (w'.work ≤ w.work ∧ Sound w' ∧ SomeSet w') ∨ w'.pipesLeft = 0 := by
  have hok := waitSelect_ok h
  rw [he] at hok
  rcases hok with hok | hok
  · left
    simp only [waitSelect] at he
    split at he
    · simp at he
    · split at he
      · simp at he
      · cases hs : select w w.sched with
        | ready w1 =>
          rw [hs] at he; simp at he; subst he
          exact select_work w.sched w rfl _ hs
        | expired u w1 => rw [hs] at he; simp at he
        | hang w1 => rw [hs] at he; simp at he
        | error w1 =>
          rw [hs] at he
          simp at he
          have := hok.1.kd.2.2
          rw [← he] at this
          simp at this
  · exact Or.inr hok.1.1.pl

theorem waitForPipe_again {n w w'} (h : L n w) (data : Bool) (he : waitForPipe w data = (w', .again)) :
    (w'.work ≤ w.work ∧ (Sound w → SomeSet w → w'.work < w.work) ∧ Sound w' ∧ SomeSet w') ∨ (w'.pipesLeft = 0 ∧ (Sound w → SomeSet w → 0 < w.work)) := by
  have h1 := handleStream_L h .out data
  have k1 := handleStream_work w .out data
  simp only [waitForPipe] at he
  split at he
  · simp at he
  · have h2 := handleStream_L h1 .err data
    have k2 := handleStream_work (handleStream w .out data).1 .err data
    split at he
    · simp at he
    · have k3 := handleSig_work (handleStream (handleStream w .out data).1 .err data).1
      have h3 := handleSig_L h2
      have hs := waitSelect_again (setSet_L h3 false false false) he
      have hw0 : (setSet (handleSig (handleStream (handleStream w .out data).1 .err data).1) false false false).work =
          (handleSig (handleStream (handleStream w .out data).1 .err data).1).work := rfl
      rw [hw0] at hs
      have hlt : Sound w → SomeSet w → (handleSig (handleStream (handleStream w .out data).1 .err data).1).work < w.work := by
        intro so ss
        by_cases c1 : w.out.inSet = true
        · have := k1.2 (so.1 c1) c1; omega
        · have e1 := handleStream_other w data (by simpa using c1)
          rw [e1] at k2 k3 ⊢
          by_cases c2 : w.err.inSet = true
          · have := k2.2 (so.2.1 c2) c2; omega
          · have e2 := handleStream_otherErr w data (by simpa using c2)
            rw [e2] at k3 ⊢
            have c3 : w.setSig = true := by rcases ss with h | h | h <;> tauto
            exact k3.2 (so.2.2 c3) c3
      rcases hs with ⟨a, b, c⟩ | hs
      · exact Or.inl ⟨by omega, fun so ss => by have := hlt so ss; omega, b, c⟩
      · exact Or.inr ⟨hs, fun so ss => by have := hlt so ss; omega⟩

theorem waitLoop_fuel (f : Nat) {n w} (h : L n w ∨ Failed n w) (data : Bool) (hf : w.work + 2 ≤ f ∨ (Sound w ∧ SomeSet w ∧ w.work + 1 ≤ f) ∨ (w.pipesLeft = 0 ∧ 1 ≤ f)) :
    (waitLoop w data f).2 ≠ .fuel := by
  induction f generalizing w with
  | zero => omega
  | succ f ih =>
    simp only [waitLoop]
    split
    · next hp =>
      rcases h with h | h
      · have hok := waitForPipe_ok h data
        cases he : waitForPipe w data with
        | mk w1 r =>
          rw [he] at hok
          cases r with
          | again =>
            have ha := waitForPipe_again h data he
            apply ih hok
            rcases ha with ⟨a1, a2, a3, a4⟩ | ⟨a1, a2⟩
            · right; left
              refine ⟨a3, a4, ?_⟩
              rcases hf with hf | ⟨s1, s2, hf⟩ | hf
              · omega
              · have := a2 s1 s2; omega
              · omega
            · right; right
              refine ⟨a1, ?_⟩
              rcases hf with hf | ⟨s1, s2, hf⟩ | hf
              · omega
              · have := a2 s1 s2; omega
              · omega
          | closed => simp
          | data p b => simp
          | expired u => simp
          | hang => simp
          | fuel => exact hok.elim
      · rw [h.1.1.pl] at hp; exact absurd hp (by omega)
    · simp

theorem waitForData_fuel {n w} (h : L n w ∨ Failed n w) (data : Bool) : (waitForData w data).2 ≠ .fuel := by
  have hk : w.state = .executing ∧ w.killed = false ∧ w.timeoutExpired = false := by
    rcases h with h | h
    · exact ⟨h.1.ex, h.1.kd.1, h.1.kd.2.1⟩
    · exact ⟨h.1.1.ex, h.2.2.2.1, h.2.2.2.2⟩
  have hn : ¬ (w.state ≠ .executing ∨ w.killed = true ∨ w.timeoutExpired = true) := by simp [hk]
  simp only [waitForData, hn, ↓reduceIte]
  have hl := waitLoop_fuel (w.work + 2) h data (Or.inl (Nat.le_refl _))
  cases he : waitLoop w data (w.work + 2) with
  | mk w1 r =>
    rw [he] at hl
    cases r with
    | expired u => cases u <;> simp
    | fuel => simp at hl
    | data p b => simp
    | closed => simp
    | again => simp
    | hang => simp

/-! ### After `Kill` -/

theorem event_dead {w} (h : Dead w) (e : Ev) : Dead (event w e) := by
  obtain ⟨b1, b2, b3, b4, b5, b6, b7, b8, b9, b10, b11, b12, b13, b14⟩ := event_frame w e
  have ho := (b14 .out).1; have he := (b14 .err).1
  refine ⟨?_, ⟨ho.trans h.shut.1, he.trans h.shut.2.1, b3.trans h.shut.2.2⟩, b4.trans h.sg, (event_sigpipe w e h.sg).trans h.sp, b8.trans h.ex, b6.trans h.pl, ?_⟩
  · intro i c hc
    obtain ⟨c', h1, h2⟩ := event_alive w e i c hc
    rw [← h2]; exact h.gone i c' h1
  · rw [b9, b10, b11]; exact h.why

theorem events_dead (l : List Ev) {w} (h : Dead w) : Dead (events w l) := by
  induction l generalizing w with
  | nil => exact h
  | cons e l ih => exact ih (event_dead h e)

theorem tick_dead {w} (h : Dead w) : Dead (tick w) := by
  simp only [tick]
  split
  · exact h
  · exact events_dead _ { h with }
  · exact { h with }

theorem killOne_dead {w} (h : Dead w) (i : Nat) : Dead (killOne w i) := by
  have hd := tick_dead h
  simp only [killOne]
  split
  · next hc => have := hd.gone i _ hc; simp [Child.alive] at this
  · next st hc => have := hd.gone i _ hc; simp [Child.alive] at this
  · exact { hd with }

theorem killFrom_dead (k : Nat) {w} (h : Dead w) (i : Nat) : Dead (killFrom w i k) := by
  induction k generalizing w i with
  | zero => exact h
  | succ k ih =>
    simp only [killFrom]
    apply ih
    split
    · exact killOne_dead h i
    · exact h

theorem closePipes_shut {w} (h : Shut w) : closePipes w = w := by
  obtain ⟨h1, h2, h3⟩ := h
  simp [closePipes, closeStream, closeSig, h1, h2, h3]

theorem kill_dead {w} (h : Dead w) : Dead (kill w) ∧ (kill w).killed = true := by
  rw [kill_eq h.ex]
  have h1 : killPrep w = { w with killed := true } := by
    simp only [killPrep]
    have hs : Shut { w with sigW := false } := h.shut
    rw [closePipes_shut hs]
    have := h.sg
    cases w; simp at this; subst this; rfl
  have h2 : Dead (killPrep w) := by rw [h1]; exact { h with why := Or.inl rfl }
  have h3 := killFrom_dead (killPrep w).fork.length h2 0
  have h4 := (killFrom_frame (killPrep w).fork.length (killPrep w) 0).1
  exact ⟨{ h3 with }, h4⟩

theorem dead_waitForData {w} (h : Dead w) (data : Bool) : waitForData w data = (w, .none) := by
  simp only [waitForData]
  split
  · rfl
  · have : waitLoop w data (w.work + 2) = (w, .closed) := by simp [waitLoop, h.pl]
    rw [this]

/-! ### `WaitForExit` -/

theorem handleStream_nodata (w : W) (p : Which) : (handleStream w p false).2 = none := by
  simp only [handleStream]
  split
  · split
    · rfl
    · split <;> rfl
  · rfl

theorem waitSelect_nodata (w : W) (p : Which) (b : List Nat) : (waitSelect w).2 ≠ .data p b := by
  simp only [waitSelect]
  split
  · simp
  · split
    · simp
    · cases select w w.sched <;> simp

theorem waitForPipe_nodata (w : W) (p : Which) (b : List Nat) : (waitForPipe w false).2 ≠ .data p b := by
  simp only [waitForPipe, handleStream_nodata]
  exact waitSelect_nodata _ _ _

theorem waitLoop_nodata (f : Nat) (w : W) (p : Which) (b : List Nat) : (waitLoop w false f).2 ≠ .data p b := by
  induction f generalizing w with
  | zero => simp [waitLoop]
  | succ f ih =>
    simp only [waitLoop]
    split
    · have := waitForPipe_nodata w p b
      cases he : waitForPipe w false with
      | mk w1 r =>
        rw [he] at this
        cases r with
        | again => exact ih w1
        | data p' b' => exact this
        | closed => simp
        | expired u => simp
        | hang => simp
        | fuel => simp
    · simp

theorem waitForData_nodata (w : W) (p : Which) (b : List Nat) : (waitForData w false).2 ≠ .pipe p b := by
  simp only [waitForData]
  split
  · simp
  · have := waitLoop_nodata (w.work + 2) w
    cases he : waitLoop w false (w.work + 2) with
    | mk w1 r =>
      rw [he] at this
      cases r with
      | data p' b' => exact absurd rfl (this p' b')
      | expired u => cases u <;> simp
      | closed => simp
      | again => simp
      | hang => simp
      | fuel => simp

/-- `WaitForExit` has finished. -/
structure Fin (n : Nat) (w : W) : Prop where
  gone : ∀ (i : Nat) (c : Child), w.children[i]? = some c → c.alive = false
  len : w.children.length = n
  shut : Shut w
  sg : w.sigW = false
  sp : w.sigpipe = false
  ex : w.state ≠ .executing

theorem outcome_frame (w : W) : (outcome w).children = w.children ∧ (outcome w).sigpipe = w.sigpipe ∧ (outcome w).state ≠ .executing ∧ (outcome w).killed = w.killed ∧
    (outcome w).timeoutExpired = w.timeoutExpired ∧ (outcome w).selectError = w.selectError := by
  simp only [outcome]
  split
  · simp
  · split
    · simp
    · split
      · simp
      · split <;> simp

theorem cleanup_fin {n w} (hg : ∀ (i : Nat) (c : Child), w.children[i]? = some c → c.alive = false) (hl : w.children.length = n) (hsp : w.sigpipe = false) (hx : w.state ≠ .executing) :
    Fin n (cleanup w) := ⟨hg, hl, ⟨rfl, rfl, rfl⟩, rfl, hsp, hx⟩

theorem shut_gone {n w} (h : L n w) (hs : Shut w) : ∀ (i : Nat) (c : Child), w.children[i]? = some c → c.alive = false :=
  h.1.noneLeft (h.1.rs hs.2.2)

/-- What `WaitForExit` gives, from an object that is executing or was killed. -/
theorem waitForExit_ok {n w} (h : L n w ∨ D n w) :
    (∃ w', waitForExit w = (w', .zero) ∧ L n w') ∨ (∃ w', waitForExit w = (w', .hang) ∧ L n w' ∧ w'.anyReady = false ∧ ¬ Shut w') ∨
    (∃ w1, waitForExit w = (cleanup (outcome w1), .one) ∧ (L n w1 ∧ Shut w1 ∨ D n w1 ∧ (w1.timeoutExpired = true ∧ w1.killed = false ∧ w1.stray = 0 ∨ w1 = w)) ∧ w1.selectError = false) ∨
    (∃ w1, waitForExit w = ({ cleanup w1 with state := .error }, .one) ∧ D n w1 ∧ w1.selectError = true ∧ (w1.stray = 0 ∨ w1 = w)) := by
  have hex : w.state = .executing := h.elim (fun h => h.1.ex) (fun h => h.1.ex)
  have hn : ¬ (w.state ≠ .executing) := by simp [hex]
  rcases h with h | h
  · simp only [waitForExit, hn, ↓reduceIte]
    have hd := waitForData_ok (Or.inl h) false
    have hf := waitForData_fuel (Or.inl h) false
    have hp := waitForData_nodata w
    cases he : waitForData w false with
    | mk w1 r =>
      rw [he] at hd hf hp
      cases r with
      | pipe p b => exact absurd rfl (hp p b)
      | timeout => exact Or.inl ⟨w1, rfl, hd⟩
      | hang => exact Or.inr (Or.inl ⟨w1, rfl, hd⟩)
      | fuel => exact absurd rfl hf
      | none =>
        rcases hd with ⟨hd, hs⟩ | hd | hd
        · have e1 := hd.1.ex
          have e2 := hd.1.kd.2.2
          refine Or.inr (Or.inr (Or.inl ⟨w1, ?_, Or.inl ⟨hd, hs⟩, e2⟩))
          simp [e1, e2]
        · have e1 := hd.1.1.ex
          have e2 := hd.2.2.1
          refine Or.inr (Or.inr (Or.inr ⟨w1, ?_, hd.1, e2, Or.inl hd.2.1⟩))
          simp [e1, e2]
        · have e1 := hd.1.1.ex
          have e2 := hd.2.2.2.2
          refine Or.inr (Or.inr (Or.inl ⟨w1, ?_, Or.inr ⟨hd.1, Or.inl ⟨hd.2.2.1, hd.2.2.2.1, hd.2.1⟩⟩, e2⟩))
          simp [e1, e2]
  · simp only [waitForExit, hn, ↓reduceIte, dead_waitForData h.1]
    cases hs : w.selectError with
    | true => exact Or.inr (Or.inr (Or.inr ⟨w, by simp [hex], h, hs, Or.inr rfl⟩))
    | false => exact Or.inr (Or.inr (Or.inl ⟨w, by simp [hex], Or.inr ⟨h, Or.inr rfl⟩, hs⟩))

theorem waitForExit_fin {n w w'} (h : L n w ∨ D n w) (he : waitForExit w = (w', .one)) : Fin n w' := by
  rcases waitForExit_ok h with ⟨w1, e, _⟩ | ⟨w1, e, _⟩ | ⟨w1, e, hc, _⟩ | ⟨w1, e, hd, _⟩
  · rw [e] at he; simp at he
  · rw [e] at he; simp at he
  · rw [e] at he
    obtain ⟨rfl⟩ : cleanup (outcome w1) = w' := (Prod.mk.injEq .. ▸ he).1
    obtain ⟨f1, f2, f3, _⟩ := outcome_frame w1
    rcases hc with ⟨hl, hs⟩ | ⟨hd, _⟩
    · exact cleanup_fin (by rw [f1]; exact shut_gone hl hs) (by rw [f1]; exact hl.2) (by rw [f2]; exact hl.1.sp) f3
    · exact cleanup_fin (by rw [f1]; exact hd.1.gone) (by rw [f1]; exact hd.2) (by rw [f2]; exact hd.1.sp) f3
  · rw [e] at he
    obtain ⟨rfl⟩ : ({ cleanup w1 with state := .error } : W) = w' := (Prod.mk.injEq .. ▸ he).1
    exact ⟨hd.1.gone, hd.2, ⟨rfl, rfl, rfl⟩, rfl, hd.1.sp, by simp⟩

/-! ### Sessions -/

/-- A call of the user on an executing object. -/
inductive Call where
  /-- `WaitForData` -/
  | read
  /-- `WaitForExit` -/
  | exit
  | kill
  deriving DecidableEq

def step (w : W) : Call → W
  | .read => (waitForData w true).1
  | .exit => (waitForExit w).1
  | .kill => kill w

def run (w : W) (cs : List Call) : W := cs.foldl step w

/-- The states of a session. -/
def S (n : Nat) (w : W) : Prop := L n w ∨ D n w ∨ Fin n w

theorem count_replicate_true (n : Nat) : (List.replicate n true).count true = n := by simp

theorem started_L (n : Nat) (hn : 0 < n) (sched : List Step) : L n (started n sched) := by
  refine ⟨⟨?_, ?_, ?_, ?_, ?_, ?_, ?_, ?_, rfl, rfl, rfl, ?_, rfl, ⟨rfl, rfl, rfl⟩⟩, by simp [started]⟩
  · simp [started]
  · simp [started]
  · intro i c hc
    simp only [started, List.getElem?_replicate] at hc ⊢
    split at hc
    · next hi => cases hc; simp [hi, Child.alive]
    · cases hc
  · intro i st hc
    simp only [started, List.getElem?_replicate] at hc
    split at hc <;> cases hc
  · simp [started]
  · show true = _; symm; apply decide_eq_true; show 0 < (List.replicate n true).count true; rw [count_replicate_true]; exact hn
  · intro h; simp [started] at h
  · intro i st _ hc
    simp only [started, List.getElem?_replicate] at hc
    split at hc <;> cases hc
  · intro p hp; cases p <;> simp [started, W.stream] at hp

theorem fin_step {n w} (h : Fin n w) (c : Call) : step w c = w := by
  have hx := h.ex
  cases c <;> simp [step, waitForData, waitForExit, kill, hx]

theorem step_S {n w} (h : S n w) (c : Call) : S n (step w c) := by
  rcases h with h | h | h
  · cases c with
    | read =>
      have hd := waitForData_ok (Or.inl h) true
      have hf := waitForData_fuel (Or.inl h) true
      simp only [step]
      cases he : waitForData w true with
      | mk w1 r =>
        rw [he] at hd hf
        cases r with
        | pipe p b => exact Or.inl hd
        | timeout => exact Or.inl hd
        | hang => exact Or.inl hd.1
        | fuel => exact absurd rfl hf
        | none =>
          rcases hd with hd | hd | hd
          · exact Or.inl hd.1
          · exact Or.inr (Or.inl hd.1)
          · exact Or.inr (Or.inl hd.1)
    | exit =>
      simp only [step]
      rcases waitForExit_ok (Or.inl h) with ⟨w1, e, hl⟩ | ⟨w1, e, hl, _⟩ | ⟨w1, e, _⟩ | ⟨w1, e, _⟩
      · rw [e]; exact Or.inl hl
      · rw [e]; exact Or.inl hl
      · exact Or.inr (Or.inr (waitForExit_fin (Or.inl h) (by rw [e])))
      · exact Or.inr (Or.inr (waitForExit_fin (Or.inl h) (by rw [e])))
    | kill => exact Or.inr (Or.inl (kill_L h).1)
  · cases c with
    | read => simp only [step, dead_waitForData h.1]; exact Or.inr (Or.inl h)
    | exit =>
      simp only [step]
      rcases waitForExit_ok (Or.inr h) with ⟨w1, e, hl⟩ | ⟨w1, e, hl, _⟩ | ⟨w1, e, _⟩ | ⟨w1, e, _⟩
      · rw [e]; exact Or.inl hl
      · rw [e]; exact Or.inl hl
      · exact Or.inr (Or.inr (waitForExit_fin (Or.inr h) (by rw [e])))
      · exact Or.inr (Or.inr (waitForExit_fin (Or.inr h) (by rw [e])))
    | kill => exact Or.inr (Or.inl ⟨(kill_dead h.1).1, (kill_len w).trans h.2⟩)
  · rw [fin_step h c]; exact Or.inr (Or.inr h)

theorem run_S (cs : List Call) {n w} (h : S n w) : S n (run w cs) := by
  induction cs generalizing w with
  | nil => exact h
  | cons c cs ih => exact ih (step_S h c)

theorem session_S (n : Nat) (hn : 0 < n) (sched : List Step) (cs : List Call) : S n (run (started n sched) cs) :=
  run_S cs (Or.inl (started_L n hn sched))

end Vital.Proc.Wait
