import Verif.Proc.ExecWire
/-
  C203-C207: kwsysProcess_Execute.

  `Exec.lean` is the model.  `execute c s` starts the commands configured in `c` from state `s`; `(execute c s).state` is what
  kwsysProcess_GetState reports.  `s.k` is the kernel as seen by the calling process: its descriptors (`tab`), its children with the
  descriptors their programs start with, the working directory, whether SIGINT and SIGTERM are blocked, and every argument given to
  kwsysProcessKill and waitpid.  Which calls fail is given by the lists `fails`, `forkFails` and `ctl` and is arbitrary.
-/
namespace Vital.Proc.Exec

/-- the state of a caller with the standard descriptors only -/
def fresh (fails forkFails ctl : List Bool) (getcwdOk : Bool) : S :=
  { k := { tab := fun fd => if fd ≤ 2 then some ⟨.old fd, false, false⟩ else none, limit := 100, nextId := 0, nextPid := 7, fails := fails, forkFails := forkFails, ctl := ctl, getcwdOk := getcwdOk
           backOk := true, cwd := ['/'], masked := false, children := [], notRun := [], signalled := [], waited := [], listed := false, ub := false }
    rOut := -1, rErr := -1, rSig := -1, sig := -1, std0 := -1, std1 := -1, std2 := -1, forkPids := [], realCwd := none, state := .starting, next := -1, sIn := -1, sOut := -1, sErr := -1, e0 := -1, e1 := -1, g0 := -1, g1 := -1 }

/-- the descriptors below 20 that are open -/
def openFds (s : S) : List Nat := (List.range 20).filter (fun fd => (s.k.tab fd).isSome)

/-! ### C203: a start that fails leaves nothing behind -/

/-- If the start fails, whatever the point of failure: every descriptor that the caller has not handed over itself is as before, the mask of signals is
    as before, the caller's earlier children are still there and every new one has been killed and waited for, the working directory is restored, and
    the signal handlers do not know the object.  Conditions: `fcntl` works, or no output goes to a file; `getcwd` and going back work, or no working
    directory is set. -/
theorem C203_failed_start_partial (c : Cfg) (s : S) (h0 : s.state ≠ .executing) (hn : 1 ≤ c.n) (hstd : ∀ fd, fd ≤ 2 → (s.k.tab fd).isSome = true) (hnat : ∀ x ∈ natives c, 2 < x)
    (hf : (∀ b ∈ s.k.ctl, b = false) ∨ ((∀ n, c.sout ≠ .file n) ∧ (∀ n, c.serr ≠ .file n))) (hw : c.wd = none ∨ (s.k.getcwdOk = true ∧ s.k.backOk = true))
    (hub : s.k.ub = false) (hpid : 0 < s.k.nextPid) (he : (execute c s).state = .error) :
    (∀ fd, fd ∉ natives c → (execute c s).k.tab fd = s.k.tab fd) ∧
    (execute c s).k.masked = s.k.masked ∧
    s.k.children <+: (execute c s).k.children ∧
    (∀ p ∈ started s (execute c s), p ∈ (execute c s).k.signalled ∧ p ∈ (execute c s).k.waited) ∧
    (execute c s).k.cwd = s.k.cwd ∧
    (execute c s).k.ub = false ∧
    (c.detach = false → (execute c s).k.listed = false) := by
  obtain ⟨h1, h2, h3, ⟨l, h4, h5, h6⟩, h7, h8, h9⟩ := execute_failed c s h0 hn hstd hnat hf hub hpid he
  refine ⟨h1, h2, h3, fun p hp => ?_, h7 hw, h8 (hw.imp id And.left), h9⟩
  have : p ∈ l := by rcases h4 with h4 | ⟨h4, _⟩ <;> simp [h4, hp]
  rw [h5, h6]
  exact ⟨List.mem_append_right _ this, List.mem_append_right _ this⟩

/-- The third command cannot be started: its predecessors are killed and waited for, only descriptors 0-2 are open. -/
example : let c : Cfg := ⟨3, some ['w'], false, .none, .pipe, .pipe, false⟩
    let r := execute c (fresh [] [false, false, true] [] true)
    r.state = .error ∧ openFds r = [0, 1, 2] ∧ r.k.waited = [7, 8, -1] ∧ r.k.cwd = ['/'] ∧ r.k.children.length = 2 := by
  decide +kernel

/-- Without the first condition the property fails: `fcntl` fails on a file opened for the output, and its descriptor stays open. -/
theorem C203_leak_refuted : ∃ (c : Cfg) (s : S), s.state = .starting ∧ (∀ fd, fd ≤ 2 → (s.k.tab fd).isSome = true) ∧ natives c = [] ∧ (execute c s).state = .error ∧
    ∃ fd, s.k.tab fd = none ∧ ((execute c s).k.tab fd).isSome = true :=
  ⟨⟨1, none, true, .none, .file ['f'], .pipe, false⟩, fresh [] [] [false, false, false, true] true, rfl, by intro fd h; simp [fresh, h], rfl, by decide +kernel, 4, rfl, by decide +kernel⟩

/-- Without the second, `chdir` is called with uninitialised memory. -/
theorem C203_uninitialised_refuted : ∃ (c : Cfg) (s : S), s.state = .starting ∧ (execute c s).state = .error ∧ s.k.ub = false ∧ (execute c s).k.ub = true :=
  ⟨⟨1, some ['w'], true, .none, .pipe, .pipe, false⟩, fresh [] [] [] false, rfl, by decide +kernel, rfl, by decide +kernel⟩

/-! ### C204: the connections of a pipeline -/

/-- All commands run, each connected to its neighbours and to nothing else.  `o`, `r` and `lk 0`, `lk 1`, … are the pipes that were made (all
    different): `o` for the output, `r` for the error output and `lk j` between commands `j` and `j + 1`.  The caller holds the read ends of the
    first two and, unless detached, both ends of a pipe for the signal handler; all its other descriptors except those handed over are as before. -/
theorem C204_wiring (c : Cfg) (s : S) (h0 : s.state ≠ .executing) (hlab : ∀ (fd : Nat) (x : Fd), s.k.tab fd = some x → x.obj = .old fd) (hstd : ∀ fd, fd ≤ 2 → (s.k.tab fd).isSome = true)
    (hnat : ∀ x ∈ natives c, 2 < x ∧ (s.k.tab x).isSome = true) (he : (execute c s).state = .executing) :
    ∃ (io : Option Obj) (oo eo : Obj) (o r : Nat) (lk : Nat → Nat) (kids : List Child),
      InSpec c.sin io ∧ OutSpec 1 o c.sout oo ∧ OutSpec 2 r c.serr eo ∧ o < r ∧ (∀ j, j + 1 < c.n → r < lk j) ∧ (∀ j j', j < j' → j' + 1 < c.n → lk j < lk j') ∧
      (execute c s).k.children = s.k.children ++ kids ∧ kids.length = c.n ∧
      (∀ j, j < c.n → ∃ tab, kids[j]? = some ⟨s.k.nextPid + j, j, tab⟩ ∧
        tab 0 = (if j = 0 then io else some (.pipeR (lk (j - 1)))) ∧
        tab 1 = some (if j + 1 = c.n then oo else .pipeW (lk j)) ∧
        (c.merge = false → tab 2 = some eo) ∧
        (c.merge = true → c.sout ≠ .shared → tab 2 = some oo) ∧
        (c.merge = true → c.sout = .shared → tab 2 = tab 1) ∧
        ∀ fd, 2 < fd → tab fd = if fd ∈ natives c then none else afterExec s.k.tab fd) ∧
      Has (execute c s) (execute c s).rOut (.pipeR o) ∧ Has (execute c s) (execute c s).rErr (.pipeR r) ∧
      (c.detach = false → ∃ q, q < o ∧ Has (execute c s) (execute c s).rSig (.pipeR q) ∧ Has (execute c s) (execute c s).sig (.pipeW q)) ∧
      (∀ fd : Nat, 2 < fd → fd ∉ natives c → (fd : Int) ∉ [(execute c s).rOut, (execute c s).rErr, (execute c s).rSig, (execute c s).sig] → (execute c s).k.tab fd = s.k.tab fd) := by
  obtain ⟨io, oo, eo, o, r, lk, kids, h1, h2, h3, h4, h5, h6, h7, h8, h9, h10⟩ := execute_wiring c s h0 hlab hstd hnat he
  refine ⟨io, oo, eo, o, r, lk, kids, h1, h2, h3, h4, h5, h6, h7, h8, fun j hj => ?_, h10⟩
  obtain ⟨tab, t1, t2⟩ := h9 j hj
  refine ⟨tab, t1, t2.inp, t2.out, fun hm => ?_, fun hm hs => ?_, fun hm hs => ?_, t2.rest⟩
  · rw [t2.err, errTo, hm]; rfl
  · rw [t2.err, errTo, hm]; simp [hs]
  · rw [t2.err, errTo, hm, t2.out]; simp [hs]

/-- Two commands, with a file as input: what their descriptors 0, 1, 2 refer to, and what the caller has open. -/
example : let c : Cfg := ⟨2, none, false, .file ['f'], .pipe, .pipe, false⟩
    let r := execute c (fresh [] [] [] true)
    r.state = .executing ∧ r.k.children.map (fun c => [c.tab 0, c.tab 1, c.tab 2, c.tab 3, c.tab 4]) =
      [[some (.file 1 ['f'] false), some (.pipeW 4), some (.pipeW 3), none, none], [some (.pipeR 4), some (.pipeW 2), some (.pipeW 3), none, none]] ∧
    openFds r = [0, 1, 2, 3, 4, 6, 8] ∧ (r.rSig, r.sig, r.rOut, r.rErr) = (3, 4, 6, 8) := by
  decide +kernel

/-! ### C205: only the own children are signalled -/

/-- If no `fork` fails, a failed start signals and waits for exactly the processes it started. -/
theorem C205_signalled_partial (c : Cfg) (s : S) (h0 : s.state ≠ .executing) (hn : 1 ≤ c.n) (hstd : ∀ fd, fd ≤ 2 → (s.k.tab fd).isSome = true) (hnat : ∀ x ∈ natives c, 2 < x)
    (hf : (∀ b ∈ s.k.ctl, b = false) ∨ ((∀ n, c.sout ≠ .file n) ∧ (∀ n, c.serr ≠ .file n))) (hub : s.k.ub = false) (hpid : 0 < s.k.nextPid)
    (hk : ∀ b ∈ s.k.forkFails, b = false) (he : (execute c s).state = .error) :
    (execute c s).k.signalled = s.k.signalled ++ started s (execute c s) ∧ (execute c s).k.waited = s.k.waited ++ started s (execute c s) := by
  obtain ⟨_, _, _, ⟨l, h4, h5, h6⟩, _⟩ := execute_failed c s h0 hn hstd hnat hf hub hpid he
  rcases h4 with h4 | ⟨_, b, hb, hb'⟩
  · rw [← h4]; exact ⟨h5, h6⟩
  · rw [hk b hb] at hb'; cases hb'

/-- the second program cannot be executed -/
example : let c : Cfg := ⟨2, none, false, .none, .pipe, .pipe, false⟩
    let r := execute c (fresh [false, false, false, false, false, false, false, false, false, false, false, true] [] [] true)
    r.state = .error ∧ r.k.signalled = [7, 8] ∧ started (fresh [] [] [] true) r = [7, 8] ∧ r.k.notRun = [8] := by
  decide +kernel

/-- A failing `fork` is different: the code "kills" process -1, that is, every process it may signal. -/
theorem C205_kill_all_refuted : ∃ (c : Cfg) (s : S), s.state = .starting ∧ s.k.signalled = [] ∧ (execute c s).k.children = [] ∧ (execute c s).k.signalled = [-1] :=
  ⟨⟨1, none, true, .none, .pipe, .pipe, false⟩, fresh [] [true] [] true, rfl, rfl, by decide +kernel, by decide +kernel⟩

/-! ### C206: what a successful start changes besides the connections -/

/-- After a successful start the recorded process numbers are those of the new children in order, nobody has been signalled or waited for, and the mask
    of signals and the working directory are as before. -/
theorem C206_started (c : Cfg) (s : S) (h0 : s.state ≠ .executing) (hstd : ∀ fd, fd ≤ 2 → (s.k.tab fd).isSome = true) (hnat : ∀ x ∈ natives c, 2 < x)
    (hf : (∀ b ∈ s.k.ctl, b = false) ∨ ((∀ n, c.sout ≠ .file n) ∧ (∀ n, c.serr ≠ .file n))) (hub : s.k.ub = false) (hpid : 0 < s.k.nextPid) (he : (execute c s).state = .executing) :
    (execute c s).forkPids = started s (execute c s) ∧ (started s (execute c s)).length = c.n ∧ (∀ p ∈ (execute c s).forkPids, 0 < p) ∧
    (execute c s).k.signalled = s.k.signalled ∧ (execute c s).k.waited = s.k.waited ∧ (execute c s).k.masked = s.k.masked ∧
    (c.wd = none ∨ s.k.backOk = true → (execute c s).k.cwd = s.k.cwd) := by
  have hne : ¬ c.n < 1 := by
    intro hn; simp [execute, h0, hn] at he
  let e : Env := { t0 := s.k.tab, N := natives c, noFail := ∀ b ∈ s.k.ctl, b = false, forkOk := ∀ b ∈ s.k.forkFails, b = false, n := c.n, wd := c.wd, cwd0 := s.k.cwd,
                   masked0 := s.k.masked, children0 := s.k.children, signalled0 := s.k.signalled, waited0 := s.k.waited, getcwdOk := s.k.getcwdOk, backOk := s.k.backOk }
  have hs : Std e.t0 e.N := fun fd hfd => ⟨hstd fd hfd, fun hm => by have := hnat fd hm; omega⟩
  have hfit : Fits e c := by
    refine ⟨rfl, rfl, fun x hx => hx, ?_, ?_⟩
    · intro n hh
      rcases hf with hf | hf
      · exact hf
      · exact absurd hh (hf.1 n)
    · intro n hh
      rcases hf with hf | hf
      · exact hf
      · exact absurd hh (hf.2 n)
  have hb : I e base X0 (Begin e) (init c s) := by
    refine ⟨⟨fun fd _ _ => rfl, fun fd _ h3 hm => ?_⟩, fun h => h, ⟨rfl, rfl, rfl, rfl, rfl, rfl, rfl, by simp [init], by simp [init]⟩, ?_⟩
    · simp [init, base] at hm
    · exact ⟨rfl, hpid, fun h => h, rfl, rfl, hub, rfl, rfl, rfl, rfl, rfl, rfl, rfl⟩
  have ht := startUp_I hs hfit (init c s) hb
  simp only [execute, h0, hne, if_false] at he ⊢
  rcases hx : startUp c (init c s) with ⟨_ | _, s1⟩
  · rw [hx] at he
    simp only at he
    rw [(cleanupRest_k c (cleanupError s1)).2] at he
    simp [cleanupError] at he
  · rw [hx] at ht
    simp only
    have hi := (ht.1 rfl).core
    have hcom := hi.common
    have hfp : s1.forkPids = newPids e (core s1) := by
      have h1 := hi.pids
      rw [Nat.sub_self, List.replicate_zero, List.append_nil] at h1
      exact h1
    refine ⟨hfp, hi.len, ?_, hcom.sg, hcom.wt, hi.mask, fun hw => ?_⟩
    · intro p hp
      have hp : p ∈ s1.forkPids := hp
      rw [hfp] at hp
      exact hcom.pos p hp
    · have hbk : s1.k.backOk = s.k.backOk := hcom.back
      show (match s1.realCwd with | some (some d) => if s1.k.backOk then d else s1.k.cwd | _ => s1.k.cwd) = s.k.cwd
      rcases hcom.dir with ⟨d1, d2, d3⟩ | ⟨d1, d2, d3⟩ | ⟨d1, d2, d3, d4⟩
      · have d2 : s1.realCwd = none := d2
        rw [d2]; exact d3
      · have d3 : s1.realCwd = some (some s.k.cwd) := d3
        have d1 : c.wd.isSome = true := d1
        rcases hw with hw | hw
        · rw [hw] at d1; simp at d1
        · rw [d3]; simp only [hbk, hw, if_true]
      · have d3 : s1.realCwd = some none := d3
        rw [d3]; exact d4

example : let c : Cfg := ⟨2, some ['w'], false, .shared, .shared, .pipe, false⟩
    let r := execute c (fresh [] [] [] true)
    r.state = .executing ∧ r.forkPids = [7, 8] ∧ r.k.cwd = ['/'] ∧ r.k.listed = true := by
  decide +kernel

/-! ### C207: merged output -/

/-- With merged output, the error output of every command goes where the output of the pipeline goes, unless that is the output of the caller. -/
theorem C207_merged_partial (c : Cfg) (s : S) (h0 : s.state ≠ .executing) (hlab : ∀ (fd : Nat) (x : Fd), s.k.tab fd = some x → x.obj = .old fd) (hstd : ∀ fd, fd ≤ 2 → (s.k.tab fd).isSome = true)
    (hnat : ∀ x ∈ natives c, 2 < x ∧ (s.k.tab x).isSome = true) (hm : c.merge = true) (hs : c.sout ≠ .shared ∨ c.n = 1) (he : (execute c s).state = .executing) :
    ∃ (oo : Obj) (o : Nat) (kids : List Child), OutSpec 1 o c.sout oo ∧ (execute c s).k.children = s.k.children ++ kids ∧ kids.length = c.n ∧
      (∀ k ∈ kids, k.tab 2 = some oo) ∧ ∃ k ∈ kids, k.tab 1 = some oo := by
  have hn : 0 < c.n := by
    refine Nat.pos_of_ne_zero fun hn => ?_
    simp [execute, h0, hn] at he
  obtain ⟨io, oo, eo, o, r, lk, kids, h1, h2, h3, h4, h5, h6, h7, h8, h9, h10⟩ := C204_wiring c s h0 hlab hstd hnat he
  refine ⟨oo, o, kids, h2, h7, h8, fun k hk => ?_, ?_⟩
  · obtain ⟨j, hj, rfl⟩ := List.mem_iff_getElem.mp hk
    obtain ⟨tab, t1, _, t2, _, t4, t5, _⟩ := h9 j (by omega)
    rw [List.getElem?_eq_getElem hj] at t1
    rw [Option.some.inj t1]
    by_cases hsh : c.sout = .shared
    · have hn1 : c.n = 1 := by rcases hs with hs | hs; · exact absurd hsh hs
                               · exact hs
      show tab 2 = some oo
      rw [t5 hm hsh, t2, if_pos (by omega)]
    · exact t4 hm hsh
  · obtain ⟨tab, t1, _, t2, _⟩ := h9 (c.n - 1) (by omega)
    refine ⟨_, List.mem_of_getElem? t1, ?_⟩
    show tab 1 = some oo
    rw [t2, if_pos (by omega)]

example : let c : Cfg := ⟨2, none, true, .none, .pipe, .pipe, true⟩
    let r := execute c (fresh [] [] [] true)
    r.state = .executing ∧ r.k.children.map (fun c => [c.tab 0, c.tab 1, c.tab 2]) = [[none, some (.pipeW 2), some (.pipeW 0)], [some (.pipeR 2), some (.pipeW 0), some (.pipeW 0)]] := by
  decide +kernel

/-- If the output is shared with the caller, the error output of the first command becomes the input of the second. -/
theorem C207_shared_refuted : ∃ (c : Cfg) (s : S) (id : Nat), c.merge = true ∧ c.sout = .shared ∧ s.state = .starting ∧ (execute c s).state = .executing ∧
    (execute c s).k.children.map (fun k => (k.tab 0, k.tab 1, k.tab 2)) = [(none, some (.pipeW id), some (.pipeW id)), (some (.pipeR id), some (.old 1), some (.old 1))] :=
  ⟨⟨2, none, true, .none, .shared, .pipe, true⟩, fresh [] [] [] true, 2, rfl, rfl, rfl, by decide +kernel, by decide +kernel⟩

end Vital.Proc.Exec
