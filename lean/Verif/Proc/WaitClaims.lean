import Verif.Proc.WaitProps
/-
  Properties C196-C200 of the model in Verif/Proc/Wait.lean.
-/
namespace Vital.Proc.Wait

/-! ### Delivery -/

/-- What the user got so far, and what is still in the pipe, is what was written. -/
def Deliv (del : Which → List Nat) (w : W) : Prop := ∀ p, (w.stream p).written = del p ++ (w.stream p).content

theorem event_deliv {del w} (h : Deliv del w) (e : Ev) : Deliv del (event w e) := by
  cases e with
  | write q b =>
    simp only [event]; split
    · intro p
      by_cases hpq : p = q
      · subst hpq
        rw [stream_setStream]
        simp only [h p, List.append_assoc]
      · have := h p
        cases p <;> cases q <;> first | exact absurd rfl hpq | exact this
    · exact h
  | close q =>
    intro p
    have := h p
    cases p <;> cases q <;> exact this
  | exit i st => simp only [event]; split <;> intro p <;> have := h p <;> cases p <;> exact this
  | sigchld => intro p; have := h p; cases p <;> exact this
  | hRead => simp only [event]; split <;> intro p <;> have := h p <;> cases p <;> exact this
  | hWrite => simp only [event]; split <;> intro p <;> have := h p <;> cases p <;> exact this

theorem events_deliv {del} (l : List Ev) {w} (h : Deliv del w) : Deliv del (events w l) := by
  induction l generalizing w with
  | nil => exact h
  | cons e l ih => exact ih (event_deliv h e)

theorem sched_deliv {del w} (h : Deliv del w) (r : List Step) : Deliv del { w with sched := r } := by
  intro p; have := h p; cases p <;> exact this

theorem tick_deliv {del w} (h : Deliv del w) : Deliv del (tick w) := by
  simp only [tick]
  split
  · exact h
  · exact events_deliv _ (sched_deliv h _)
  · exact sched_deliv h _

theorem deliv_congr {del w w'} (h : Deliv del w) (ho : w'.out.written = w.out.written) (ho2 : w'.out.content = w.out.content)
    (he : w'.err.written = w.err.written) (he2 : w'.err.content = w.err.content) : Deliv del w' := by
  intro p
  have := h p
  cases p
  · simp only [stream_out] at this ⊢; rw [ho, ho2]; exact this
  · simp only [stream_err] at this ⊢; rw [he, he2]; exact this

def addTo (del : Which → List Nat) (p : Which) (b : List Nat) : Which → List Nat := fun q => if q = p then del q ++ b else del q

theorem setStream_deliv {del w} (h : Deliv del w) (p : Which) (s : Stream) (hs : s.written = (w.stream p).written) (b : List Nat)
    (hb : b ++ s.content = (w.stream p).content) : Deliv (addTo del p b) (w.setStream p s) := by
  intro q
  by_cases hq : q = p
  · subst hq
    rw [stream_setStream, hs, h q]
    simp [addTo, ← hb]
  · have := h q
    have h1 : (w.setStream p s).stream q = w.stream q := by cases p <;> cases q <;> first | exact absurd rfl hq | rfl
    rw [h1]; simp [addTo, hq, this]

theorem addTo_nil (del : Which → List Nat) (p : Which) : addTo del p [] = del := by
  funext q; simp [addTo]

def HOk (del : Which → List Nat) (p : Which) : W × Option (List Nat) → Prop
  | (w', none) => Deliv del w'
  | (w', some b) => Deliv (addTo del p b) w'

theorem handleStream_deliv {del w} (h : Deliv del w) (p : Which) : HOk del p (handleStream w p true) := by
  have h0 : Deliv del (tick (w.setStream p { w.stream p with inSet := false })) := by
    apply tick_deliv
    have := setStream_deliv h p { w.stream p with inSet := false } rfl [] rfl
    rwa [addTo_nil] at this
  simp only [handleStream]
  split
  · generalize tick (w.setStream p { w.stream p with inSet := false }) = w1 at h0 ⊢
    split
    · exact setStream_deliv h0 p { w1.stream p with content := (w1.stream p).content.drop 1024 } rfl _ (List.take_append_drop 1024 _)
    · split
      · exact h0
      · have := setStream_deliv h0 p { w1.stream p with rOpen := false } rfl [] rfl
        rw [addTo_nil] at this
        exact deliv_congr this rfl rfl rfl rfl
  · exact h

theorem reap_deliv {del w} (h : Deliv del w) (i : Nat) : Deliv del (reap w i) := by
  obtain ⟨_, _, ho, he, _⟩ := reap_frame w i
  exact deliv_congr h (by rw [ho]) (by rw [ho]) (by rw [he]) (by rw [he])

theorem destroyFrom_deliv {del} (k : Nat) {w} (h : Deliv del w) (i : Nat) : Deliv del (destroyFrom w i k) := by
  induction k generalizing w i with
  | zero => exact h
  | succ k ih =>
    simp only [destroyFrom]
    apply ih
    split
    · exact reap_deliv (tick_deliv h) i
    · exact h

theorem handleSig_deliv {del w} (h : Deliv del w) : Deliv del (handleSig w) := by
  have h0 : Deliv del (tick { w with setSig := false }) := tick_deliv (deliv_congr h rfl rfl rfl rfl)
  simp only [handleSig]
  generalize tick { w with setSig := false } = w1 at h0 ⊢
  generalize w1.sigBytes - 1024 = nb
  split
  · split
    · exact destroyFrom_deliv _ (w := { w1 with sigBytes := nb }) (deliv_congr h0 rfl rfl rfl rfl) 0
    · split
      · exact h0
      · exact deliv_congr h0 rfl rfl rfl rfl
  · exact h

theorem select_deliv {del} (l : List Step) {w} (h : Deliv del w) : Deliv del (select w l).w := by
  induction l generalizing w with
  | nil =>
    simp only [select]; split
    · exact deliv_congr h rfl rfl rfl rfl
    · exact h
  | cons e l ih =>
    cases e with
    | evs ev =>
      simp only [select]; split
      · exact deliv_congr h rfl rfl rfl rfl
      · exact ih (events_deliv _ (sched_deliv h _))
    | timeout u =>
      simp only [select]; split
      · exact deliv_congr h rfl rfl rfl rfl
      · exact sched_deliv h _
    | error =>
      simp only [select]; split
      · exact deliv_congr h rfl rfl rfl rfl
      · exact sched_deliv h _

/-- What was delivered is a beginning of what was written. -/
def Prefix (del : Which → List Nat) (w : W) : Prop := ∀ p, ∃ r, (w.stream p).written = del p ++ r

theorem Deliv.prefix {del w} (h : Deliv del w) : Prefix del w := fun p => ⟨_, h p⟩

theorem event_prefix {del w} (h : Prefix del w) (e : Ev) : Prefix del (event w e) := by
  intro p
  obtain ⟨r, hr⟩ := h p
  cases e with
  | write q b =>
    simp only [event]; split
    · by_cases hpq : p = q
      · subst hpq
        rw [stream_setStream]
        exact ⟨r ++ b, by simp only [hr, List.append_assoc]⟩
      · refine ⟨r, ?_⟩
        cases p <;> cases q <;> first | exact absurd rfl hpq | exact hr
    · exact ⟨r, hr⟩
  | close q => exact ⟨r, by cases p <;> cases q <;> exact hr⟩
  | exit i st => refine ⟨r, ?_⟩; simp only [event]; split <;> cases p <;> exact hr
  | sigchld => refine ⟨r, ?_⟩; cases p <;> exact hr
  | hRead => refine ⟨r, ?_⟩; simp only [event]; split <;> cases p <;> exact hr
  | hWrite => refine ⟨r, ?_⟩; simp only [event]; split <;> cases p <;> exact hr

theorem prefix_congr {del w w'} (h : Prefix del w) (ho : w'.out.written = w.out.written) (he : w'.err.written = w.err.written) : Prefix del w' := by
  intro p
  obtain ⟨r, hr⟩ := h p
  refine ⟨r, ?_⟩
  cases p
  · simp only [stream_out] at hr ⊢; rw [ho]; exact hr
  · simp only [stream_err] at hr ⊢; rw [he]; exact hr

theorem events_prefix {del} (l : List Ev) {w} (h : Prefix del w) : Prefix del (events w l) := by
  induction l generalizing w with
  | nil => exact h
  | cons e l ih => exact ih (event_prefix h e)

theorem tick_prefix {del w} (h : Prefix del w) : Prefix del (tick w) := by
  simp only [tick]
  split
  · exact h
  · exact events_prefix _ (prefix_congr h rfl rfl)
  · exact prefix_congr h rfl rfl

theorem setStream_prefix {del w} (h : Prefix del w) (p : Which) (s : Stream) (hs : s.written = (w.stream p).written) : Prefix del (w.setStream p s) := by
  cases p
  · exact prefix_congr h hs rfl
  · exact prefix_congr h rfl hs

theorem closeStream_prefix {del w} (h : Prefix del w) (p : Which) : Prefix del (closeStream w p) := by
  have h0 := tick_prefix (setStream_prefix h p { w.stream p with inSet := false } rfl)
  simp only [closeStream]
  generalize tick (w.setStream p { w.stream p with inSet := false }) = w1 at h0 ⊢
  have h1 := setStream_prefix h0 p { w1.stream p with content := (w1.stream p).content.drop 1024 } rfl
  generalize w1.setStream p { w1.stream p with content := (w1.stream p).content.drop 1024 } = w2 at h1 ⊢
  split
  · split
    · exact prefix_congr (setStream_prefix h1 p { w2.stream p with rOpen := false } rfl) rfl rfl
    · exact prefix_congr (setStream_prefix h p { w.stream p with rOpen := false } rfl) rfl rfl
  · exact h

theorem closeSig_prefix {del w} (h : Prefix del w) : Prefix del (closeSig w) := by
  have h0 : Prefix del (tick { w with setSig := false }) := tick_prefix (prefix_congr h rfl rfl)
  simp only [closeSig]
  generalize tick { w with setSig := false } = w1 at h0 ⊢
  generalize w1.sigBytes - 1024 = nb
  split
  · split
    · exact prefix_congr h0 rfl rfl
    · exact prefix_congr h rfl rfl
  · exact h

theorem killFrom_prefix {del} (k : Nat) {w} (h : Prefix del w) (i : Nat) : Prefix del (killFrom w i k) := by
  induction k generalizing w i with
  | zero => exact h
  | succ k ih =>
    simp only [killFrom]
    apply ih
    split
    · have h0 := tick_prefix h
      simp only [killOne]
      split <;> exact prefix_congr h0 rfl rfl
    · exact h

theorem kill_prefix {del w} (h : Prefix del w) : Prefix del (kill w) := by
  by_cases hx : w.state = .executing
  · rw [kill_eq hx]
    have h0 : Prefix del { w with sigW := false } := prefix_congr h rfl rfl
    have h1 : Prefix del (closePipes { w with sigW := false }) := closeSig_prefix (closeStream_prefix (closeStream_prefix h0 .out) .err)
    have h2 : Prefix del (killPrep w) := prefix_congr h1 rfl rfl
    have h3 := killFrom_prefix (killPrep w).fork.length h2 0
    exact prefix_congr h3 rfl rfl
  · have : kill w = w := by simp [kill, hx]
    rw [this]; exact h

/-- What a turn or a loop does with the data. -/
def DOk (del : Which → List Nat) : W × PipeRes → Prop
  | (w, .data p b) => Deliv (addTo del p b) w
  | (w, .expired _) => Deliv del w
  | (w, .closed) => Deliv del w ∨ (w.selectError = true ∧ Prefix del w)
  | (w, .again) => Deliv del w ∨ (w.selectError = true ∧ w.pipesLeft = 0 ∧ Prefix del w)
  | (w, .hang) => Deliv del w
  | (_, .fuel) => True

theorem waitSelect_deliv {n del w} (hl : L n w) (h : Deliv del w) : DOk del (waitSelect w) := by
  have hok := waitSelect_ok hl
  simp only [waitSelect] at hok ⊢
  split
  · exact sched_deliv h _
  · next hne =>
    split
    · exact Or.inl h
    · next hns =>
      have hs := select_deliv w.sched h
      have hls : L n (select w w.sched).w := ⟨select_live w.sched hl.1, (select_len w.sched w).trans hl.2⟩
      cases he : select w w.sched with
      | ready w1 => rw [he] at hs; exact Or.inl hs
      | expired u w1 => rw [he] at hs; exact deliv_congr hs rfl rfl rfl rfl
      | hang w1 => rw [he] at hs; exact hs
      | error w1 =>
        rw [he] at hs hls
        have h1 : Deliv del (setSet w1 w1.out.rOpen w1.err.rOpen w1.rSig) := deliv_congr hs rfl rfl rfl rfl
        have hd := (kill_L (setSet_L hls w1.out.rOpen w1.err.rOpen w1.rSig)).1.1
        exact Or.inr ⟨rfl, hd.pl, prefix_congr (kill_prefix h1.prefix) rfl rfl⟩

theorem waitForPipe_deliv {n del w} (hl : L n w) (h : Deliv del w) : DOk del (waitForPipe w true) := by
  have l1 := handleStream_L hl .out true
  have d1 := handleStream_deliv h .out
  simp only [waitForPipe]
  cases e1 : handleStream w .out true with
  | mk w1 r1 =>
    rw [e1] at l1 d1
    cases r1 with
    | some b => exact d1
    | none =>
      change Deliv del w1 at d1
      simp only
      have l2 := handleStream_L l1 .err true
      have d2 := handleStream_deliv d1 .err
      cases e2 : handleStream w1 .err true with
      | mk w2 r2 =>
        rw [e2] at l2 d2
        cases r2 with
        | some b => exact d2
        | none =>
          change Deliv del w2 at d2
          simp only
          exact waitSelect_deliv (setSet_L (handleSig_L l2) false false false) (deliv_congr (handleSig_deliv d2) rfl rfl rfl rfl)

theorem waitLoop_deliv (f : Nat) {n del w} (hl : L n w) (h : Deliv del w) : DOk del (waitLoop w true f) := by
  induction f generalizing w with
  | zero => trivial
  | succ f ih =>
    simp only [waitLoop]
    split
    · have d := waitForPipe_deliv hl h
      have l := waitForPipe_ok hl true
      cases he : waitForPipe w true with
      | mk w1 r =>
        rw [he] at d l
        cases r with
        | again =>
          simp only
          rcases d with d | ⟨d1, d2, d3⟩
          · rcases l with l | l
            · exact ih l d
            · have : w1.pipesLeft = 0 := l.1.1.pl
              cases f with
              | zero => trivial
              | succ f => simp only [waitLoop, this]; exact Or.inl d
          · cases f with
            | zero => trivial
            | succ f => simp only [waitLoop, d2]; exact Or.inr ⟨d1, d3⟩
        | data p b => exact d
        | expired u => exact d
        | closed => exact d
        | hang => exact d
        | fuel => exact d
    · exact Or.inl h

/-- One `WaitForData`. -/
def ROk (del : Which → List Nat) : W × Res → Prop
  | (w', .pipe p b) => Deliv (addTo del p b) w'
  | (w', .none) => Deliv del w' ∨ Prefix del w' ∧ (w'.selectError = true ∨ w'.timeoutExpired = true)
  | (w', _) => Deliv del w'

theorem waitForData_deliv {n del w} (hl : L n w) (h : Deliv del w) : ROk del (waitForData w true) := by
  have hk : w.state = .executing ∧ w.killed = false ∧ w.timeoutExpired = false := ⟨hl.1.ex, hl.1.kd.1, hl.1.kd.2.1⟩
  have hn : ¬ (w.state ≠ .executing ∨ w.killed = true ∨ w.timeoutExpired = true) := by simp [hk]
  have d := waitLoop_deliv (w.work + 2) hl h
  have hf := waitLoop_fuel (w.work + 2) (Or.inl hl) true (Or.inl (Nat.le_refl _))
  have hok := waitLoop_ok (w.work + 2) (Or.inl hl) true
  simp only [waitForData, hn, ↓reduceIte]
  cases he : waitLoop w true (w.work + 2) with
  | mk w1 r =>
    rw [he] at d hf hok
    cases r with
    | data p b => exact d
    | expired u =>
      cases u with
      | true => exact d
      | false => exact Or.inr ⟨prefix_congr (kill_prefix d.prefix) rfl rfl, Or.inr rfl⟩
    | closed =>
      rcases d with d | ⟨d1, d2⟩
      · exact Or.inl d
      · exact Or.inr ⟨d2, Or.inl d1⟩
    | again => exact hok.elim
    | hang => exact d
    | fuel => exact absurd rfl hf

/-- The results of `k` calls of `WaitForData`, and the object afterwards. -/
def reads (w : W) : Nat → List Res × W
  | 0 => ([], w)
  | k + 1 => ((waitForData w true).2 :: (reads (waitForData w true).1 k).1, (reads (waitForData w true).1 k).2)

/-- The bytes the user got for a pipe. -/
def got (p : Which) (rs : List Res) : List Nat :=
  rs.flatMap (fun r => match r with | .pipe q b => if q = p then b else [] | _ => [])

theorem got_cons (p : Which) (r : Res) (rs : List Res) : got p (r :: rs) = got p [r] ++ got p rs := by simp [got]

/-- the state after some reads -/
def RS (n : Nat) (del : Which → List Nat) (w : W) : Prop := (L n w ∧ Deliv del w) ∨ (D n w ∧ Prefix del w ∧ (w.selectError = true ∨ w.timeoutExpired = true))

theorem read_RS {n del w} (h : RS n del w) : RS n (fun p => del p ++ got p [(waitForData w true).2]) (waitForData w true).1 ∧
    ((waitForData w true).2 = .none → (L n (waitForData w true).1 ∧ Shut (waitForData w true).1) ∨ (waitForData w true).1.selectError = true ∨ (waitForData w true).1.timeoutExpired = true) := by
  have same : ∀ r : Res, (∀ p b, r ≠ .pipe p b) → (fun p => del p ++ got p [r]) = del := by
    intro r hr; funext p
    cases r with
    | pipe q b => exact absurd rfl (hr q b)
    | timeout => simp [got]
    | none => simp [got]
    | hang => simp [got]
    | fuel => simp [got]
  rcases h with ⟨hl, hd⟩ | ⟨hd, hp, hw⟩
  · have h1 := waitForData_deliv hl hd
    have h2 := waitForData_ok (Or.inl hl) true
    have h3 := waitForData_fuel (Or.inl hl) true
    cases he : waitForData w true with
    | mk w1 r =>
      rw [he] at h1 h2 h3
      simp only
      cases r with
      | pipe p b =>
        refine ⟨Or.inl ⟨h2, ?_⟩, fun h => by cases h⟩
        have : (fun q => del q ++ got q [.pipe p b]) = addTo del p b := by
          funext q
          by_cases hq : q = p
          · subst hq; simp [got, addTo]
          · have hq' : p ≠ q := fun h => hq h.symm
            simp [got, addTo, hq, hq']
        rw [this]; exact h1
      | timeout => rw [same _ (by simp)]; exact ⟨Or.inl ⟨h2, h1⟩, fun h => by cases h⟩
      | hang => rw [same _ (by simp)]; exact ⟨Or.inl ⟨h2.1, h1⟩, fun h => by cases h⟩
      | fuel => exact absurd rfl h3
      | none =>
        rw [same _ (by simp)]
        rcases h2 with ⟨h2, hs⟩ | h2 | h2
        · refine ⟨Or.inl ⟨h2, ?_⟩, fun _ => Or.inl ⟨h2, hs⟩⟩
          rcases h1 with h1 | ⟨_, h1 | h1⟩
          · exact h1
          · rw [h2.1.kd.2.2] at h1; cases h1
          · rw [h2.1.kd.2.1] at h1; cases h1
        · refine ⟨Or.inr ⟨h2.1, ?_, Or.inl h2.2.2.1⟩, fun _ => Or.inr (Or.inl h2.2.2.1)⟩
          rcases h1 with h1 | h1
          · exact h1.prefix
          · exact h1.1
        · refine ⟨Or.inr ⟨h2.1, ?_, Or.inr h2.2.2.1⟩, fun _ => Or.inr (Or.inr h2.2.2.1)⟩
          rcases h1 with h1 | h1
          · exact h1.prefix
          · exact h1.1
  · have := dead_waitForData hd.1 true
    rw [this]
    simp only
    rw [same _ (by simp)]
    exact ⟨Or.inr ⟨hd, hp, hw⟩, fun _ => Or.inr hw⟩

theorem reads_RS (k : Nat) {n del w} (h : RS n del w) : RS n (fun p => del p ++ got p (reads w k).1) (reads w k).2 ∧
    ((reads w k).1.getLast? = some .none → (L n (reads w k).2 ∧ Shut (reads w k).2) ∨ (reads w k).2.selectError = true ∨ (reads w k).2.timeoutExpired = true) := by
  induction k generalizing del w with
  | zero => simp [reads, got]; exact h
  | succ k ih =>
    obtain ⟨h1, h2⟩ := read_RS h
    obtain ⟨h3, h4⟩ := ih h1
    simp only [reads]
    refine ⟨?_, ?_⟩
    · have : (fun p => del p ++ got p ((waitForData w true).2 :: (reads (waitForData w true).1 k).1)) =
          (fun p => del p ++ got p [(waitForData w true).2] ++ got p (reads (waitForData w true).1 k).1) := by
        funext p; rw [got_cons, List.append_assoc]
      rw [this]; exact h3
    · intro hl
      cases k with
      | zero => exact h2 (by simpa [reads] using hl)
      | succ k =>
        apply h4
        rw [← hl]
        simp [reads, List.getLast?_cons_cons]

/-! ### C196: the output is delivered completely, in order, without change -/

/-- However the children's writes, the signals and the timeouts fall, the data of the `WaitForData` calls for a pipe is always a beginning of
    what was written to it, and when `WaitForData` says that there is no more, it is all that was written — and no one can write more —
    unless the process timed out or `select` failed. -/
theorem C196_delivery (n : Nat) (hn : 0 < n) (sched : List Step) (k : Nat) (p : Which) :
    (∃ rest, ((reads (started n sched) k).2.stream p).written = got p (reads (started n sched) k).1 ++ rest) ∧
    ((reads (started n sched) k).1.getLast? = some .none → (reads (started n sched) k).2.timeoutExpired = false → (reads (started n sched) k).2.selectError = false →
      got p (reads (started n sched) k).1 = ((reads (started n sched) k).2.stream p).written ∧ ((reads (started n sched) k).2.stream p).wopen = false) := by
  have h0 : RS n (fun _ => []) (started n sched) := Or.inl ⟨started_L n hn sched, fun p => by cases p <;> rfl⟩
  obtain ⟨h1, h2⟩ := reads_RS k h0
  simp only [List.nil_append] at h1
  refine ⟨?_, ?_⟩
  · rcases h1 with ⟨_, h1⟩ | ⟨_, h1, _⟩
    · exact ⟨_, h1 p⟩
    · exact h1 p
  · intro hl ht he
    rcases h2 hl with ⟨hl, hs⟩ | h2 | h2
    · rcases h1 with ⟨_, h1⟩ | ⟨hd, _, h1 | h1⟩
      · have hr : ((reads (started n sched) k).2.stream p).rOpen = false := by cases p <;> first | exact hs.1 | exact hs.2.1
        obtain ⟨hc, hw⟩ := hl.1.str p hr
        have := h1 p
        rw [hc, List.append_nil] at this
        exact ⟨this.symm, hw⟩
      · rw [he] at h1; cases h1
      · rw [ht] at h1; cases h1
    · rw [he] at h2; cases h2
    · rw [ht] at h2; cases h2

/-- A command that writes "hi" to standard output in two parts, "!" to standard error and exits: both are delivered. -/
example : (reads demo 3).1 = [.pipe .out [104, 105], .pipe .err [33], .none] := by decide +kernel
example : (reads demo 3).2.timeoutExpired = false ∧ (reads demo 3).2.selectError = false := by decide +kernel

/-! ### C197: no wake-up is lost -/

/-- something the process waits for has still to happen -/
def Busy (w : W) : Prop := w.pending = true ∨ 0 < w.hActive ∨ (∃ i : Nat, w.children[i]? = some Child.running) ∨ w.out.wopen = true ∨ w.err.wopen = true

theorem hang_busy {n w} (h : L n w) (hr : w.anyReady = false) (hs : ¬ Shut w) : Busy w := by
  by_cases ho : w.out.wopen = true
  · exact Or.inr (Or.inr (Or.inr (Or.inl ho)))
  by_cases he : w.err.wopen = true
  · exact Or.inr (Or.inr (Or.inr (Or.inr he)))
  simp only [W.anyReady, Bool.or_eq_false_iff] at hr
  obtain ⟨⟨r1, r2⟩, r3⟩ := hr
  simp [Stream.ready, ho] at r1
  simp [Stream.ready, he] at r2
  have hrs : w.rSig = true := by
    cases hh : w.rSig with
    | true => rfl
    | false => exact absurd ⟨r1, r2, hh⟩ hs
  simp [W.sigReady, hrs] at r3
  have hcnt : 0 < w.fork.count true := by
    have := h.1.sw
    rw [r3.2] at this
    exact of_decide_eq_true this.symm
  rw [List.count_pos_iff] at hcnt
  obtain ⟨i, hi⟩ := List.mem_iff_getElem?.mp hcnt
  have hlt : i < w.children.length := by
    have := (List.getElem?_eq_some_iff.mp hi).1
    have := h.1.lenF; omega
  have hc : w.children[i]? = some w.children[i] := List.getElem?_eq_getElem hlt
  have ha := h.1.fk i _ hc
  rw [hi] at ha
  cases hcc : w.children[i] with
  | running => exact Or.inr (Or.inr (Or.inl ⟨i, by rw [hc, hcc]⟩))
  | gone st => rw [hcc] at ha; simp [Child.alive] at ha
  | zombie st =>
    have := h.1.notif i st (by have := h.2; omega) (by rw [hc, hcc])
    rcases this with h1 | h1 | h1
    · exact Or.inl h1
    · exact Or.inr (Or.inl h1)
    · omega

/-- Whatever calls the user made and however the exits of the children, the deliveries of SIGCHLD and the two halves of the handler interleave
    with the reading of the signal pipe and the `waitpid` calls: if `WaitForData` or `WaitForExit` blocks for ever, then a child runs, a
    writer holds a pipe open, or a SIGCHLD is not yet handled; it is never a child that exited unnoticed. -/
theorem C197_no_lost_wakeup (n : Nat) (hn : 0 < n) (sched : List Step) (cs : List Call) (w : W) (hw : w = run (started n sched) cs) (data : Bool) (w' : W) :
    (waitForData w data = (w', .hang) → Busy w') ∧ (waitForExit w = (w', .hang) → Busy w') ∧ (waitForData w data).2 ≠ .fuel ∧ (waitForExit w).2 ≠ .fuel := by
  have hS := session_S n hn sched cs
  rw [← hw] at hS
  rcases hS with h | h | h
  · refine ⟨?_, ?_, waitForData_fuel (Or.inl h) data, ?_⟩
    · intro he
      have := waitForData_ok (Or.inl h) data
      rw [he] at this
      exact hang_busy this.1 this.2.1 this.2.2
    · intro he
      rcases waitForExit_ok (Or.inl h) with ⟨w1, e, _⟩ | ⟨w1, e, h1, h2, h3⟩ | ⟨w1, e, _⟩ | ⟨w1, e, _⟩
      · rw [e] at he; simp at he
      · rw [e] at he; simp at he; subst he; exact hang_busy h1 h2 h3
      · rw [e] at he; simp at he
      · rw [e] at he; simp at he
    · rcases waitForExit_ok (Or.inl h) with ⟨w1, e, _⟩ | ⟨w1, e, h1, h2, h3⟩ | ⟨w1, e, _⟩ | ⟨w1, e, _⟩ <;> rw [e] <;> simp
  · refine ⟨?_, ?_, ?_, ?_⟩
    · intro he; rw [dead_waitForData h.1] at he; simp at he
    · intro he
      rcases waitForExit_ok (Or.inr h) with ⟨w1, e, _⟩ | ⟨w1, e, h1, h2, h3⟩ | ⟨w1, e, _⟩ | ⟨w1, e, _⟩
      · rw [e] at he; simp at he
      · rw [e] at he; simp at he; subst he; exact hang_busy h1 h2 h3
      · rw [e] at he; simp at he
      · rw [e] at he; simp at he
    · rw [dead_waitForData h.1]; simp
    · rcases waitForExit_ok (Or.inr h) with ⟨w1, e, _⟩ | ⟨w1, e, h1, h2, h3⟩ | ⟨w1, e, _⟩ | ⟨w1, e, _⟩ <;> rw [e] <;> simp
  · have hx := h.ex
    simp [waitForData, waitForExit, hx]

/-- A hang that is justified: the child never exits. -/
example : (waitForExit (started 1 [.evs [.close .out, .close .err]])).2 = .hang := by decide +kernel

/-- Two children exit at the same moment; the handler runs twice, interleaved with the object's `waitpid` calls. -/
def race : W :=
  started 2 [.evs [.close .out, .close .err], .evs [], .evs [], .evs [.exit 0 0, .hRead, .hWrite], .evs [.exit 1 256, .hRead], .evs [], .evs [.hWrite], .evs []]

example : (waitForExit race).2 = .one ∧ (waitForExit race).1.exitValue = 1 := by decide +kernel

/-! ### C198: the exit status -/

/-- The process timeout does not expire and `select` does not fail. -/
def Step.calm : Step → Bool
  | .evs _ => true | .timeout u => u | .error => false

def Calm (w : W) : Prop := ∀ s ∈ w.sched, s.calm = true

theorem calm_of_sub {w w'} (h : Calm w) (hs : ∀ s ∈ w'.sched, s ∈ w.sched) : Calm w' := fun s hm => h s (hs s hm)

theorem tick_sub (w : W) : ∀ s ∈ (tick w).sched, s ∈ w.sched := by
  simp only [tick]
  split
  · exact fun s h => h
  · next l r h =>
    intro s hs
    rw [(events_frame l { w with sched := r }).2.2.2.2.2.2.2.2.2.2.2.2.1] at hs
    rw [h]; exact List.mem_cons_of_mem _ hs
  · next x r _ h => intro s hs; rw [h]; exact List.mem_cons_of_mem _ hs

theorem setStream_sched (w : W) (p : Which) (s : Stream) : (w.setStream p s).sched = w.sched := by cases p <;> rfl

theorem handleStream_sub (w : W) (p : Which) (d : Bool) : ∀ s ∈ (handleStream w p d).1.sched, s ∈ w.sched := by
  have h0 := tick_sub (w.setStream p { w.stream p with inSet := false })
  rw [setStream_sched] at h0
  simp only [handleStream]
  generalize tick (w.setStream p { w.stream p with inSet := false }) = w1 at h0 ⊢
  split
  · split
    · intro s hs; simp only [setStream_sched] at hs; exact h0 s hs
    · split
      · exact h0
      · intro s hs; simp only [setStream_sched] at hs; exact h0 s hs
  · exact fun s h => h

theorem destroyFrom_sub (k : Nat) (w : W) (i : Nat) : ∀ s ∈ (destroyFrom w i k).sched, s ∈ w.sched := by
  induction k generalizing w i with
  | zero => exact fun s h => h
  | succ k ih =>
    simp only [destroyFrom]
    intro s hs
    have := ih _ _ s hs
    split at this
    · rw [(reap_frame _ _).2.2.2.2.2.1] at this; exact tick_sub w s this
    · exact this

theorem handleSig_sub (w : W) : ∀ s ∈ (handleSig w).sched, s ∈ w.sched := by
  have h0 := tick_sub { w with setSig := false }
  simp only [handleSig]
  generalize tick { w with setSig := false } = w1 at h0 ⊢
  generalize w1.sigBytes - 1024 = nb
  split
  · split
    · intro s hs
      exact h0 s (destroyFrom_sub _ { w1 with sigBytes := nb } _ s hs)
    · split <;> exact h0
  · exact fun s h => h

theorem select_calm (l : List Step) (w : W) (hl : w.sched = l) (h : ∀ s ∈ l, s.calm = true) :
    Calm (select w l).w ∧ (∀ w', select w l ≠ .error w') ∧ (∀ w', select w l ≠ .expired false w') := by
  have base : Calm w.ready := fun s hs => h s (by rw [← hl]; exact hs)
  have base' : Calm w := fun s hs => h s (by rw [← hl]; exact hs)
  induction l generalizing w with
  | nil =>
    simp only [select]; split
    · exact ⟨base, by simp, by simp⟩
    · exact ⟨base', by simp, by simp⟩
  | cons e l ih =>
    have hr : ∀ s ∈ l, s.calm = true := fun s hs => h s (List.mem_cons_of_mem _ hs)
    cases e with
    | evs ev =>
      simp only [select]; split
      · exact ⟨base, by simp, by simp⟩
      · have hf := (events_frame ev { w with sched := l }).2.2.2.2.2.2.2.2.2.2.2.2.1
        have hc : Calm (events { w with sched := l } ev) := fun s hs => hr s (by rw [hf] at hs; exact hs)
        exact ih _ hf hr hc hc
    | timeout u =>
      have hu : u = true := h (.timeout u) (List.mem_cons_self ..)
      subst hu
      simp only [select]; split
      · exact ⟨base, by simp, by simp⟩
      · exact ⟨fun s hs => hr s hs, by simp, by simp⟩
    | error => have := h .error (List.mem_cons_self ..); simp [Step.calm] at this

/-- A turn without process timeout or error. -/
def CalmOk : W × PipeRes → Prop
  | (_, .expired false) => False
  | (w, _) => Calm w ∧ w.selectError = false

theorem waitSelect_calm {n w} (hl : L n w) (h : Calm w) : CalmOk (waitSelect w) := by
  have hse := hl.1.kd.2.2
  simp only [waitSelect]
  split
  · next u r hs =>
    have hu : u = true := h (.timeout u) (by rw [hs]; exact List.mem_cons_self ..)
    subst hu
    exact ⟨fun s hm => h s (by rw [hs]; exact List.mem_cons_of_mem _ hm), hse⟩
  · split
    · exact ⟨h, hse⟩
    · obtain ⟨h1, h2, h3⟩ := select_calm w.sched w rfl h
      have hls := select_live w.sched hl.1
      cases he : select w w.sched with
      | ready w1 => rw [he] at h1 hls; exact ⟨h1, hls.kd.2.2⟩
      | hang w1 => rw [he] at h1 hls; exact ⟨h1, hls.kd.2.2⟩
      | error w1 => exact absurd he (h2 w1)
      | expired u w1 =>
        cases u with
        | true => rw [he] at h1 hls; exact ⟨h1, hls.kd.2.2⟩
        | false => exact absurd he (h3 w1)

theorem waitForPipe_calm {n w} (hl : L n w) (h : Calm w) (d : Bool) : CalmOk (waitForPipe w d) := by
  have l1 := handleStream_L hl .out d
  have c1 := calm_of_sub h (handleStream_sub w .out d)
  simp only [waitForPipe]
  split
  · exact ⟨c1, l1.1.kd.2.2⟩
  · have l2 := handleStream_L l1 .err d
    have c2 := calm_of_sub c1 (handleStream_sub _ .err d)
    split
    · exact ⟨c2, l2.1.kd.2.2⟩
    · have l3 := handleSig_L l2
      have c3 := calm_of_sub c2 (handleSig_sub _)
      exact waitSelect_calm (setSet_L l3 false false false) c3

theorem waitLoop_calm (f : Nat) {n w} (hl : L n w) (h : Calm w) (d : Bool) : CalmOk (waitLoop w d f) := by
  induction f generalizing w with
  | zero => exact ⟨h, hl.1.kd.2.2⟩
  | succ f ih =>
    simp only [waitLoop]
    split
    · have hok := waitForPipe_ok hl d
      have hc := waitForPipe_calm hl h d
      cases he : waitForPipe w d with
      | mk w1 r =>
        rw [he] at hok hc
        cases r with
        | again =>
          rcases hok with hok | hok
          · exact ih hok hc.1
          · have h1 := hok.2.2.1; rw [hc.2] at h1; cases h1
        | data p b => exact hc
        | expired u => exact hc
        | closed => exact hc
        | hang => exact hc
        | fuel => exact hc
    · exact ⟨h, hl.1.kd.2.2⟩

theorem waitForData_calm {n w} (hl : L n w) (h : Calm w) (d : Bool) :
    L n (waitForData w d).1 ∧ Calm (waitForData w d).1 ∧ ((waitForData w d).2 = .none → Shut (waitForData w d).1) := by
  have hk : w.state = .executing ∧ w.killed = false ∧ w.timeoutExpired = false := ⟨hl.1.ex, hl.1.kd.1, hl.1.kd.2.1⟩
  have hn : ¬ (w.state ≠ .executing ∨ w.killed = true ∨ w.timeoutExpired = true) := by simp [hk]
  have hok := waitLoop_ok (w.work + 2) (Or.inl hl) d
  have hf := waitLoop_fuel (w.work + 2) (Or.inl hl) d (Or.inl (Nat.le_refl _))
  have hc := waitLoop_calm (w.work + 2) hl h d
  simp only [waitForData, hn, ↓reduceIte]
  cases he : waitLoop w d (w.work + 2) with
  | mk w1 r =>
    rw [he] at hok hf hc
    cases r with
    | data p b => exact ⟨hok, hc.1, fun h => by cases h⟩
    | expired u =>
      cases u with
      | true => exact ⟨hok, hc.1, fun h => by cases h⟩
      | false => exact hc.elim
    | closed =>
      rcases hok with hok | hok
      · exact ⟨hok.1, hc.1, fun _ => hok.2⟩
      · have h1 := hok.2.2.1; rw [hc.2] at h1; cases h1
    | again => exact hok.elim
    | hang => exact ⟨hok.1, hc.1, fun h => by cases h⟩
    | fuel => exact absurd rfl hf

/-- Without process timeout, error and `Kill`: `WaitForExit` ends by itself. -/
theorem waitForExit_calm {n w} (hl : L n w) (h : Calm w) :
    (∃ w1, L n w1 ∧ Shut w1 ∧ waitForExit w = (cleanup (outcome w1), .one)) ∨ ((waitForExit w).2 ≠ .one ∧ L n (waitForExit w).1 ∧ Calm (waitForExit w).1) := by
  have hn : ¬ (w.state ≠ .executing) := by simp [hl.1.ex]
  obtain ⟨h1, h2, h3⟩ := waitForData_calm hl h false
  have hf := waitForData_fuel (Or.inl hl) false
  have hp := waitForData_nodata w
  simp only [waitForExit, hn, ↓reduceIte]
  cases he : waitForData w false with
  | mk w1 r =>
    rw [he] at h1 h2 h3 hf hp
    cases r with
    | pipe p b => exact absurd rfl (hp p b)
    | timeout => exact Or.inr ⟨by simp, h1, h2⟩
    | hang => exact Or.inr ⟨by simp, h1, h2⟩
    | fuel => exact absurd rfl hf
    | none =>
      have e1 : w1.state = .executing := h1.1.ex
      have e2 : w1.selectError = false := h1.1.kd.2.2
      exact Or.inl ⟨w1, h1, h3 rfl, by simp [e1, e2]⟩

/-- The wait statuses of the children. -/
def status : Child → Nat
  | .gone st => st | .zombie st => st | .running => 0

theorem gone_codes {n w} (h : L n w) (hs : Shut w) : w.children = w.codes.map .gone := by
  apply List.ext_getElem?
  intro i
  rw [List.getElem?_map]
  by_cases hi : i < w.children.length
  · have hc : w.children[i]? = some w.children[i] := List.getElem?_eq_getElem hi
    have := shut_gone h hs i _ hc
    cases hcc : w.children[i] with
    | running => rw [hcc] at this; simp [Child.alive] at this
    | zombie st => rw [hcc] at this; simp [Child.alive] at this
    | gone st =>
      rw [hcc] at hc
      rw [hc, h.1.cd i st hc]; rfl
  · have h1 : w.children[i]? = none := List.getElem?_eq_none (by omega)
    have h2 : w.codes[i]? = none := List.getElem?_eq_none (by have := h.1.lenC; omega)
    rw [h1, h2]; rfl

/-- a session without `Kill`, process timeout and error -/
theorem calm_session (cs : List Call) {n w} (h : (L n w ∧ Calm w) ∨ Fin n w) (hk : .kill ∉ cs) : (L n (run w cs) ∧ Calm (run w cs)) ∨ Fin n (run w cs) := by
  induction cs generalizing w with
  | nil => exact h
  | cons c cs ih =>
    have hk' : .kill ∉ cs := fun hm => hk (List.mem_cons_of_mem _ hm)
    show (L n (run (step w c) cs) ∧ Calm (run (step w c) cs)) ∨ _
    apply ih _ hk'
    rcases h with ⟨hl, hc⟩ | h
    · cases c with
      | read => have := waitForData_calm hl hc true; exact Or.inl ⟨this.1, this.2.1⟩
      | exit =>
        rcases waitForExit_calm hl hc with ⟨w1, l1, s1, e⟩ | ⟨_, l1, c1⟩
        · exact Or.inr (waitForExit_fin (Or.inl hl) (by show waitForExit w = ((waitForExit w).1, .one); rw [e]))
        · exact Or.inl ⟨l1, c1⟩
      | kill => exact absurd (List.mem_cons_self ..) hk
    · rw [fin_step h c]; exact Or.inr h

/-- Without process timeout, error and `Kill`, whatever the interleaving: when `WaitForExit` returns 1 every child has been reaped, and the state of the
    object is that of the last command: `Exited` with the value it passed to `exit`, or `Exception` with the number of the signal that ended it. -/
theorem C198_exit_status (n : Nat) (hn : 0 < n) (sched : List Step) (hc : ∀ s ∈ sched, s.calm = true) (cs : List Call) (hk : .kill ∉ cs) (w w' : W)
    (hw : w = run (started n sched) cs) (hx : w.state = .executing) (he : waitForExit w = (w', .one)) :
    ∃ sts : List Nat, sts.length = n ∧ w'.children = sts.map .gone ∧
      (∀ v, v < 256 → sts.getLast? = some (256 * v) → w'.state = .exited ∧ w'.exitValue = v) ∧
      (∀ s core, 0 < s → s < 127 → core < 2 → sts.getLast? = some (s + 128 * core) → w'.state = .exception ∧ termSig w'.exitCode = s) := by
  have h0 : Calm (started n sched) := hc
  have := calm_session cs (Or.inl ⟨started_L n hn sched, h0⟩) hk
  rw [← hw] at this
  rcases this with ⟨hl, hcw⟩ | hf
  · rcases waitForExit_calm hl hcw with ⟨w1, l1, s1, e⟩ | ⟨hne, _⟩
    · rw [e] at he
      obtain ⟨rfl⟩ : cleanup (outcome w1) = w' := (Prod.mk.injEq .. ▸ he).1
      have hg := gone_codes l1 s1
      have k1 := l1.1.kd.1
      have k2 := l1.1.kd.2.1
      refine ⟨w1.codes, l1.1.lenC.trans l1.2, (outcome_frame w1).1.trans hg, ?_, ?_⟩
      · intro v hv hlast
        have e1 : exitedNormally (256 * v) = true := by simp [exitedNormally]; omega
        have e2 : exitStatus (256 * v) = v := by simp [exitStatus]; omega
        simp [cleanup, outcome, k1, k2, hlast, e1, e2]
      · intro s core h1 h2 h3 hlast
        have e1 : exitedNormally (s + 128 * core) = false := by simp [exitedNormally]; omega
        have e2 : signaled (s + 128 * core) = true := by simp [signaled]; omega
        have e3 : termSig (s + 128 * core) = s := by simp [termSig]; omega
        simp [cleanup, outcome, k1, k2, hlast, e1, e2, e3]
    · rw [he] at hne; exact absurd rfl hne
  · exact absurd hx hf.ex

/-- `Kill` during the execution: all children are reaped at once, nothing can block any more, and `WaitForExit` reports `Killed`. -/
theorem C198_kill (n : Nat) (hn : 0 < n) (sched : List Step) (cs : List Call) (w : W) (hw : w = run (started n sched) cs) (hx : w.state = .executing) (hs : w.selectError = false) :
    ∃ w', waitForExit (kill w) = (w', .one) ∧ w'.state = .killed ∧ w'.children.length = n ∧ ∀ (i : Nat) (c : Child), (kill w).children[i]? = some c → ∃ st, c = .gone st := by
  have hS := session_S n hn sched cs
  rw [← hw] at hS
  have key : D n (kill w) ∧ (kill w).killed = true := by
    rcases hS with h | h | h
    · exact ⟨(kill_L h).1, (kill_live h.1).2.2⟩
    · exact ⟨⟨(kill_dead h.1).1, (kill_len w).trans h.2⟩, (kill_dead h.1).2⟩
    · exact absurd hx h.ex
  obtain ⟨hd, hkk⟩ := key
  have hse : (kill w).selectError = false := (kill_kd w).2.trans hs
  have hn' : ¬ ((kill w).state ≠ .executing) := by simp [hd.1.ex]
  have hne : (kill w).state ≠ .error := by simp [hd.1.ex]
  refine ⟨cleanup (outcome (kill w)), ?_, ?_, ?_, ?_⟩
  · simp only [waitForExit, hn', ↓reduceIte, dead_waitForData hd.1, hne, hse]
    rfl
  · simp [cleanup, outcome, hkk]
  · show (outcome (kill w)).children.length = n
    rw [(outcome_frame _).1]; exact hd.2
  · intro i c hc
    have := hd.1.gone i c hc
    cases c with
    | gone st => exact ⟨st, rfl⟩
    | running => simp [Child.alive] at this
    | zombie st => simp [Child.alive] at this

example : (waitForExit demo).2 = .one ∧ (waitForExit demo).1.state = .exited ∧ (waitForExit demo).1.exitValue = 3 := by decide +kernel
example : (waitForExit (kill (run demo [.read]))).1.state = .killed := by decide +kernel

/-! ### C199: descriptors and signals -/

/-- In every session the signal handler never writes to a pipe without reader; while the object executes, the number of pipes left is that of its open
    read ends and the signal pipe can be written as long as a child is not reaped and nobody called `Kill`; afterwards everything is closed and every child is reaped. -/
theorem C199_descriptors (n : Nat) (hn : 0 < n) (sched : List Step) (cs : List Call) (w : W) (hw : w = run (started n sched) cs) :
    w.sigpipe = false ∧
    (w.state = .executing → w.pipesLeft = ([w.out.rOpen, w.err.rOpen, w.rSig].count true : Nat)) ∧
    (w.state = .executing → w.killed = false → w.timeoutExpired = false → w.selectError = false → (∃ (i : Nat) (c : Child), w.children[i]? = some c ∧ ∀ st, c ≠ .gone st) → w.sigW = true ∧ w.rSig = true) ∧
    (w.state ≠ .executing → w.out.rOpen = false ∧ w.err.rOpen = false ∧ w.rSig = false ∧ w.sigW = false ∧ ∀ (i : Nat) (c : Child), w.children[i]? = some c → ∃ st, c = Child.gone st) := by
  have hS := session_S n hn sched cs
  rw [← hw] at hS
  have hg : ∀ c : Child, c.alive = false → ∃ st, c = .gone st := by
    intro c hc; cases c with
    | gone st => exact ⟨st, rfl⟩
    | running => simp [Child.alive] at hc
    | zombie st => simp [Child.alive] at hc
  rcases hS with h | h | h
  · refine ⟨h.1.sp, ?_, ?_, ?_⟩
    · intro _
      rw [h.1.pl]
      cases w.out.rOpen <;> cases w.err.rOpen <;> cases w.rSig <;> rfl
    · intro _ _ _ _ ⟨i, c, hc, hne⟩
      have hsw : w.sigW = true := by
        cases hh : w.sigW with
        | true => rfl
        | false => obtain ⟨st, hst⟩ := hg c (h.1.noneLeft hh i c hc); exact absurd hst (hne st)
      refine ⟨hsw, ?_⟩
      cases hh : w.rSig with
      | true => rfl
      | false => rw [h.1.rs hh] at hsw; cases hsw
    · intro hx; exact absurd h.1.ex hx
  · refine ⟨h.1.sp, ?_, ?_, ?_⟩
    · intro _
      obtain ⟨s1, s2, s3⟩ := h.1.shut
      rw [h.1.pl, s1, s2, s3]; rfl
    · intro _ k1 k2 k3
      rcases h.1.why with hh | hh | hh
      · rw [k1] at hh; cases hh
      · rw [k2] at hh; cases hh
      · rw [k3] at hh; cases hh
    · intro hx; exact absurd h.1.ex hx
  · refine ⟨h.sp, ?_, ?_, ?_⟩
    · intro hx; exact absurd hx h.ex
    · intro hx; exact absurd hx h.ex
    · intro _
      exact ⟨h.shut.1, h.shut.2.1, h.shut.2.2, h.sg, fun i c hc => hg c (h.gone i c hc)⟩

example : (run demo [.read, .exit]).state = .exited ∧ (run demo [.read]).pipesLeft = 3 := by decide +kernel

/-! ### C200: `Kill` signals only own children -/

/-- A session never signals a process that is not a child of the object any more. -/
def C200_full : Prop := ∀ n, 0 < n → ∀ sched cs, (run (started n sched) cs).stray = 0

/-- The process identifiers are kept after `Kill` has reaped the children, so a second `Kill` sends SIGKILL to whatever process has got the number meanwhile. -/
theorem C200_refuted : ¬ C200_full := by
  intro h
  have := h 1 (by decide) [] [.kill, .kill]
  exact absurd this (by decide +kernel)

/-- The same after the process timeout. -/
theorem C200_timeout_then_kill : (run (started 1 [.evs [], .timeout false]) [.exit]).stray = 0 ∧ (run (started 1 [.evs [], .timeout false]) [.read, .kill]).stray = 1 := by
  decide +kernel

def S0 (n : Nat) (w : W) : Prop := L n w ∨ (D n w ∧ w.stray = 0 ∧ (w.timeoutExpired = true ∨ w.selectError = true)) ∨ (Fin n w ∧ w.stray = 0)

theorem outcome_stray (w : W) : (outcome w).stray = w.stray := by
  simp only [outcome]
  split
  · rfl
  · split
    · rfl
    · split
      · rfl
      · split <;> rfl

theorem step_S0 {n w} (h : S0 n w) (c : Call) (hc : c ≠ .kill) : S0 n (step w c) := by
  have fin : ∀ w', (L n w ∨ D n w) → waitForExit w = (w', .one) → w'.stray = 0 → S0 n w' := fun w' h1 h2 h3 => Or.inr (Or.inr ⟨waitForExit_fin h1 h2, h3⟩)
  have exitCase : (L n w ∨ D n w ∧ w.stray = 0) → S0 n (waitForExit w).1 := by
    intro h
    have h' : L n w ∨ D n w := h.imp id (fun h => h.1)
    have hst : w.stray = 0 := h.elim (fun h => h.1.st) (fun h => h.2)
    rcases waitForExit_ok h' with ⟨w1, e, hl⟩ | ⟨w1, e, hl, _⟩ | ⟨w1, e, hh, _⟩ | ⟨w1, e, hd, _, hh⟩
    · rw [e]; exact Or.inl hl
    · rw [e]; exact Or.inl hl
    · refine fin _ h' (by rw [e]) ?_
      rw [e]
      show (outcome w1).stray = 0
      rw [outcome_stray]
      rcases hh with ⟨hl, _⟩ | ⟨_, ⟨_, _, hh⟩ | hh⟩
      · exact hl.1.st
      · exact hh
      · rw [hh]; exact hst
    · refine fin _ h' (by rw [e]) ?_
      rw [e]
      show w1.stray = 0
      rcases hh with hh | hh
      · exact hh
      · rw [hh]; exact hst
  rcases h with h | ⟨h, hs, hw⟩ | ⟨h, hs⟩
  · cases c with
    | read =>
      have hd := waitForData_ok (Or.inl h) true
      have hf := waitForData_fuel (Or.inl h) true
      simp only [step]
      cases he : waitForData w true with
      | mk w1 r =>
        rw [he] at hd hf
        cases r with
        | pipe p b => exact Or.inl hd
        | timeout => exact Or.inl hd
        | hang => exact Or.inl hd.1
        | fuel => exact absurd rfl hf
        | none =>
          rcases hd with hd | hd | hd
          · exact Or.inl hd.1
          · exact Or.inr (Or.inl ⟨hd.1, hd.2.1, Or.inr hd.2.2.1⟩)
          · exact Or.inr (Or.inl ⟨hd.1, hd.2.1, Or.inl hd.2.2.1⟩)
    | exit => exact exitCase (Or.inl h)
    | kill => exact absurd rfl hc
  · cases c with
    | read => simp only [step, dead_waitForData h.1]; exact Or.inr (Or.inl ⟨h, hs, hw⟩)
    | exit => exact exitCase (Or.inr ⟨h, hs⟩)
    | kill => exact absurd rfl hc
  · rw [fin_step h c]; exact Or.inr (Or.inr ⟨h, hs⟩)

theorem run_S0 (cs : List Call) {n w} (h : S0 n w) (hk : .kill ∉ cs) : S0 n (run w cs) := by
  induction cs generalizing w with
  | nil => exact h
  | cons c cs ih =>
    apply ih (step_S0 h c (fun hc => hk (by rw [hc]; exact List.mem_cons_self ..)))
    exact fun hm => hk (List.mem_cons_of_mem _ hm)

/-- No stray signal before the second `Kill` (a process timeout or a failing `select` counts as one): neither in a session without `Kill`, nor by the first `Kill`,
    even when some of the children have been reaped, nor by any call after the end.  Missing: later `Kill`s. -/
theorem C200_first_kill_partial (n : Nat) (hn : 0 < n) (sched : List Step) (cs : List Call) (hk : .kill ∉ cs) (w : W) (hw : w = run (started n sched) cs) :
    w.stray = 0 ∧ (w.timeoutExpired = false → w.selectError = false → (kill w).stray = 0) := by
  have h := run_S0 cs (Or.inl (started_L n hn sched)) hk
  rw [← hw] at h
  rcases h with h | ⟨h, hs, hw'⟩ | ⟨h, hs⟩
  · exact ⟨h.1.st, fun _ _ => (kill_L h).2⟩
  · refine ⟨hs, fun h1 h2 => ?_⟩
    rcases hw' with hh | hh
    · rw [h1] at hh; cases hh
    · rw [h2] at hh; cases hh
  · refine ⟨hs, fun _ _ => ?_⟩
    have : kill w = w := by simp [kill, h.ex]
    rw [this]; exact hs

/-- The first command is reaped, the second runs on: `Kill` signals only the second. -/
example : (run race [.read]).children = [.gone 0, .gone 256] ∧ (kill (run (started 2 [.evs [], .evs [.exit 0 0, .hRead, .hWrite], .evs [], .timeout true]) [.read])).children = [.gone 0, .gone 9] := by
  decide +kernel

end Vital.Proc.Wait
