import Verif.Basic.Str
import Mathlib.Algebra.Order.Ring.Rat
import Mathlib.Algebra.Order.Floor.Ring
import Mathlib.Data.Rat.Floor
import Mathlib.Tactic.Linarith
import Mathlib.Tactic.Ring
import Mathlib.Tactic.FieldSimp
/-
  Model of the time arithmetic and the timeouts of vital/kwiversys/ProcessUNIX.c (2130-2262, 1141-1196); property C194.

  A `double` is a rational and its arithmetic exact (rounding is not modelled); `long` is unbounded.
-/
namespace Vital.Proc

/-! ### The code -/

-- models: vital/kwiversys/ProcessUNIX.c:137-143 (struct kwsysProcessTime_s)
structure Time where
  sec : Int
  usec : Int
  deriving DecidableEq, Repr

/-- `(long) d`: towards zero. -/
def trunc (d : Rat) : Int := if d < 0 then -⌊-d⌋ else ⌊d⌋

-- models: vital/kwiversys/ProcessUNIX.c:2221-2227 (kwsysProcessTimeFromDouble)
def fromDouble (d : Rat) : Time := ⟨trunc d, trunc ((d - trunc d) * 1000000)⟩

-- models: vital/kwiversys/ProcessUNIX.c:2215-2218 (kwsysProcessTimeToDouble)
def toDouble (t : Time) : Rat := (t.sec : Rat) + (t.usec : Rat) * (1 / 1000000)

-- models: vital/kwiversys/ProcessUNIX.c:2230-2234 (kwsysProcessTimeLess)
def Time.less (a b : Time) : Bool := decide (a.sec < b.sec) || (decide (a.sec = b.sec) && decide (a.usec < b.usec))

-- models: vital/kwiversys/ProcessUNIX.c:2237-2248 (kwsysProcessTimeAdd)
def Time.add (a b : Time) : Time :=
  if a.usec + b.usec > 1000000 then ⟨a.sec + b.sec + 1, a.usec + b.usec - 1000000⟩ else ⟨a.sec + b.sec, a.usec + b.usec⟩

-- models: vital/kwiversys/ProcessUNIX.c:2251-2262 (kwsysProcessTimeSubtract)
def Time.sub (a b : Time) : Time :=
  if a.usec - b.usec < 0 then ⟨a.sec - b.sec - 1, a.usec - b.usec + 1000000⟩ else ⟨a.sec - b.sec, a.usec - b.usec⟩

/-- The process timeout is computed at the first call; the result is the new `cp->TimeoutTime`, `*timeoutTime` and the return value (user timeout first). -/
-- models: vital/kwiversys/ProcessUNIX.c:2130-2161 (kwsysProcessGetTimeoutTime)
def getTimeoutTime (timeout : Rat) (start cpTime : Time) (user : Option Rat) (now : Time) : Time × Time × Bool :=
  let cp := if timeout > 0 ∧ cpTime.sec < 0 then start.add (fromDouble timeout) else cpTime
  match user with
  | none => (cp, cp, false)
  | some u =>
    let ut := now.add (fromDouble u)
    if cp.sec < 0 ∨ ut.less cp then (cp, ut, true) else (cp, cp, false)

/-- Return value and `*timeoutLength` (`none`: not written). -/
-- models: vital/kwiversys/ProcessUNIX.c:2166-2202 (kwsysProcessGetTimeoutLeft)
def getTimeoutLeft (tt : Time) (user : Option Rat) (now : Time) (zeroIsExpired : Bool) : Bool × Option Time :=
  if tt.sec < 0 then (false, none)
  else
    let left0 := tt.sub now
    let left := if left0.sec < 0 ∧ (∃ u, user = some u ∧ u ≤ 0) then ⟨0, 0⟩ else left0
    if left.sec < 0 ∨ (left.sec = 0 ∧ left.usec = 0 ∧ zeroIsExpired = true) then (true, none) else (false, some left)

/-- The user timeout when `WaitForData` returns. -/
-- models: vital/kwiversys/ProcessUNIX.c:1166-1178
def updateUser (u : Rat) (start finish : Time) : Rat :=
  let u' := u - toDouble (finish.sub start)
  if u' < 0 then 0 else u'

/-! ### Specification -/

/-- A time in microseconds. -/
def Time.micros (t : Time) : Int := t.sec * 1000000 + t.usec

/-- What `gettimeofday` returns and what `select` accepts. -/
def Time.Valid (t : Time) : Prop := 0 ≤ t.sec ∧ 0 ≤ t.usec ∧ t.usec < 1000000

/-! ### Proofs -/

theorem trunc_bounds (d : Rat) : (0 ≤ d → 0 ≤ trunc d ∧ (trunc d : Rat) ≤ d ∧ d < trunc d + 1) ∧ (d ≤ 0 → trunc d ≤ 0 ∧ d ≤ trunc d ∧ (trunc d : Rat) - 1 < d) := by
  unfold trunc
  constructor
  · intro h
    rw [if_neg (not_lt.2 h)]
    exact ⟨Int.floor_nonneg.2 h, Int.floor_le d, Int.lt_floor_add_one d⟩
  · intro h
    split
    · have h1 := Int.floor_le (-d)
      have h2 := Int.lt_floor_add_one (-d)
      have h3 : 0 ≤ ⌊-d⌋ := Int.floor_nonneg.2 (by linarith)
      push_cast
      exact ⟨by omega, by linarith, by linarith⟩
    · have : d = 0 := le_antisymm h (not_lt.1 ‹_›)
      subst this
      simp

theorem micros_cast (t : Time) : (t.micros : Rat) = t.sec * 1000000 + t.usec := by unfold Time.micros; push_cast; ring

/-- The conversion of seconds: truncation of the microseconds towards zero. -/
theorem fromDouble_micros (d : Rat) : (fromDouble d).micros = trunc (d * 1000000) ∧ (0 ≤ d → (fromDouble d).Valid) ∧ (d ≤ 0 → -1000000 < (fromDouble d).usec ∧ (fromDouble d).usec ≤ 0 ∧ (fromDouble d).sec ≤ 0) := by
  rcases le_total 0 d with h | h
  · obtain ⟨a1, a2, a3⟩ := (trunc_bounds d).1 h
    have hf : 0 ≤ (d - trunc d) * 1000000 := by nlinarith
    obtain ⟨b1, b2, b3⟩ := (trunc_bounds _).1 hf
    have hu : trunc ((d - trunc d) * 1000000) < 1000000 := by
      have : (trunc ((d - trunc d) * 1000000) : Rat) < 1000000 := by linarith
      exact_mod_cast this
    obtain ⟨c1, c2, c3⟩ := (trunc_bounds (d * 1000000)).1 (by linarith)
    refine ⟨?_, fun _ => ⟨a1, b1, hu⟩, fun h' => ?_⟩
    · have e1 : ((fromDouble d).micros : Rat) ≤ d * 1000000 := by rw [micros_cast]; simp only [fromDouble]; linarith
      have e2 : d * 1000000 < ((fromDouble d).micros : Rat) + 1 := by rw [micros_cast]; simp only [fromDouble]; linarith
      have e3 : ((fromDouble d).micros : Rat) < trunc (d * 1000000) + 1 := by linarith
      have e4 : (trunc (d * 1000000) : Rat) < (fromDouble d).micros + 1 := by linarith
      have e3 : (fromDouble d).micros < trunc (d * 1000000) + 1 := by exact_mod_cast e3
      have e4 : trunc (d * 1000000) < (fromDouble d).micros + 1 := by exact_mod_cast e4
      omega
    · have : d = 0 := le_antisymm h' h
      subst this
      simp [fromDouble, trunc]
  · obtain ⟨a1, a2, a3⟩ := (trunc_bounds d).2 h
    have hf : (d - trunc d) * 1000000 ≤ 0 := by nlinarith
    obtain ⟨b1, b2, b3⟩ := (trunc_bounds _).2 hf
    have hu : -1000000 < trunc ((d - trunc d) * 1000000) := by
      have : (-1000000 : Rat) < trunc ((d - trunc d) * 1000000) := by linarith
      exact_mod_cast this
    obtain ⟨c1, c2, c3⟩ := (trunc_bounds (d * 1000000)).2 (by linarith)
    refine ⟨?_, fun h' => ?_, fun _ => ⟨hu, b1, a1⟩⟩
    · have e1 : d * 1000000 ≤ ((fromDouble d).micros : Rat) := by rw [micros_cast]; simp only [fromDouble]; linarith
      have e2 : ((fromDouble d).micros : Rat) - 1 < d * 1000000 := by rw [micros_cast]; simp only [fromDouble]; linarith
      have e3 : ((fromDouble d).micros : Rat) < trunc (d * 1000000) + 1 := by linarith
      have e4 : (trunc (d * 1000000) : Rat) < (fromDouble d).micros + 1 := by linarith
      have e3 : (fromDouble d).micros < trunc (d * 1000000) + 1 := by exact_mod_cast e3
      have e4 : trunc (d * 1000000) < (fromDouble d).micros + 1 := by exact_mod_cast e4
      omega
    · have : d = 0 := le_antisymm h h'
      subst this
      simp [fromDouble, trunc, Time.Valid]

theorem add_micros (a b : Time) : (a.add b).micros = a.micros + b.micros := by
  unfold Time.add Time.micros; split <;> simp only <;> omega

theorem sub_micros (a b : Time) : (a.sub b).micros = a.micros - b.micros := by
  unfold Time.sub Time.micros; split <;> simp only <;> omega

/-- What `Add` returns for valid times: valid, except that the microseconds may be 1000000. -/
theorem add_range (a b : Time) (ha : a.Valid) (hb : b.Valid) : 0 ≤ (a.add b).sec ∧ 0 ≤ (a.add b).usec ∧ (a.add b).usec ≤ 1000000 := by
  obtain ⟨a1, a2, a3⟩ := ha
  obtain ⟨b1, b2, b3⟩ := hb
  unfold Time.add; split <;> simp only <;> omega

/-- The order of times whose microseconds lie between 0 and 1000000 (inclusive): only two ways of writing the same time may be confused. -/
theorem less_micros (a b : Time) (ha : 0 ≤ a.usec ∧ a.usec ≤ 1000000) (hb : 0 ≤ b.usec ∧ b.usec ≤ 1000000) :
    (a.less b = true → a.micros ≤ b.micros) ∧ (a.less b = false → b.micros ≤ a.micros) := by
  unfold Time.less Time.micros
  constructor
  · intro h; simp at h; omega
  · intro h; simp at h; omega

/-- **C194.** The arithmetic is exact: the microseconds of a sum and of a difference are the sum and the difference; a number of seconds is
    truncated to microseconds; the comparison of valid times is that of their microseconds. -/
theorem C194_arithmetic (a b : Time) (d : Rat) :
    (a.add b).micros = a.micros + b.micros ∧ (a.sub b).micros = a.micros - b.micros ∧ (fromDouble d).micros = trunc (d * 1000000) ∧
    (a.Valid → b.Valid → (a.less b = true ↔ a.micros < b.micros)) ∧ toDouble a * 1000000 = (a.micros : Rat) := by
  refine ⟨add_micros a b, sub_micros a b, (fromDouble_micros d).1, fun ha hb => ?_, ?_⟩
  · obtain ⟨a1, a2, a3⟩ := ha
    obtain ⟨b1, b2, b3⟩ := hb
    unfold Time.less Time.micros
    simp
    omega
  · unfold toDouble; rw [micros_cast]; ring

/-- **C194, the deadline.** A wait ends at the earlier of the process deadline (start plus timeout) and the user deadline (now plus user timeout);
    the answer says which of the two it is. -/
theorem C194_deadline (timeout : Rat) (start cpTime now : Time) (user : Option Rat) (hs : start.Valid) (hn : now.Valid)
    (hc : cpTime.sec < 0 ∨ (0 ≤ cpTime.usec ∧ cpTime.usec ≤ 1000000)) (hu : ∀ u, user = some u → 0 ≤ u)
    (r : Time × Time × Bool) (hr : r = getTimeoutTime timeout start cpTime user now) :
    -- the process deadline is fixed by the first call and never moved
    (0 ≤ cpTime.sec → r.1 = cpTime) ∧ (cpTime.sec < 0 → timeout ≤ 0 → r.1 = cpTime) ∧
    (cpTime.sec < 0 → 0 < timeout → 0 ≤ r.1.sec ∧ r.1.micros = start.micros + trunc (timeout * 1000000) ∧ 0 ≤ r.1.usec ∧ r.1.usec ≤ 1000000) ∧
    -- the chosen deadline
    (∀ u, user = some u → r.2.2 = true → r.2.1.micros = now.micros + trunc (u * 1000000) ∧ 0 ≤ r.2.1.sec ∧ (0 ≤ r.1.sec → r.2.1.micros ≤ r.1.micros)) ∧
    (r.2.2 = false → r.2.1 = r.1 ∧ ∀ u, user = some u → 0 ≤ r.1.sec ∧ r.1.micros ≤ now.micros + trunc (u * 1000000)) ∧
    (user = none → r.2.2 = false) := by
  obtain ⟨cp, hcp⟩ : ∃ cp, cp = (if timeout > 0 ∧ cpTime.sec < 0 then start.add (fromDouble timeout) else cpTime) := ⟨_, rfl⟩
  have hcr : cp.sec < 0 ∨ (0 ≤ cp.usec ∧ cp.usec ≤ 1000000) := by
    rw [hcp]; split
    · rename_i h
      exact .inr (add_range _ _ hs ((fromDouble_micros timeout).2.1 (le_of_lt h.1))).2
    · exact hc
  have h1 : r.1 = cp := by
    rw [hr]; unfold getTimeoutTime; simp only [← hcp]
    cases user with
    | none => rfl
    | some u =>
      simp only
      split <;> rfl
  have f1 : 0 ≤ cpTime.sec → cp = cpTime := by intro h; rw [hcp, if_neg (by omega)]
  have f2 : cpTime.sec < 0 → timeout ≤ 0 → cp = cpTime := by intro _ h; rw [hcp, if_neg (by intro hh; exact absurd hh.1 (not_lt.2 h))]
  have f3 : cpTime.sec < 0 → 0 < timeout → 0 ≤ cp.sec ∧ cp.micros = start.micros + trunc (timeout * 1000000) ∧ 0 ≤ cp.usec ∧ cp.usec ≤ 1000000 := by
    intro h h'
    rw [hcp, if_pos ⟨h', h⟩]
    have hv := (fromDouble_micros timeout).2.1 (le_of_lt h')
    have := add_range _ _ hs hv
    exact ⟨this.1, by rw [add_micros, (fromDouble_micros timeout).1], this.2⟩
  rw [h1]
  refine ⟨f1, f2, f3, ?_, ?_, ?_⟩
  · intro u hu' ht
    subst hu'
    have hv := (fromDouble_micros u).2.1 (hu u rfl)
    have hrange := add_range _ _ hn hv
    rw [hr] at ht ⊢
    unfold getTimeoutTime at ht ⊢
    simp only [← hcp] at ht ⊢
    split at ht
    · rename_i hcond
      rw [if_pos hcond]
      refine ⟨by simp only; rw [add_micros, (fromDouble_micros u).1], hrange.1, fun hpos => ?_⟩
      rcases hcond with h | h
      · omega
      · rcases hcr with h' | h'
        · omega
        · exact (less_micros _ _ hrange.2 h').1 h
    · cases ht
  · intro ht
    rw [hr] at ht ⊢
    unfold getTimeoutTime at ht ⊢
    simp only [← hcp] at ht ⊢
    cases user with
    | none => exact ⟨rfl, fun u h => by cases h⟩
    | some u =>
      simp only at ht ⊢
      split at ht
      · cases ht
      · rename_i hcond
        rw [if_neg hcond]
        refine ⟨rfl, fun u' h => ?_⟩
        cases h
        have hcond : ¬ cp.sec < 0 ∧ ¬ (now.add (fromDouble u)).less cp = true := not_or.1 hcond
        have hpos : 0 ≤ cp.sec := by have := hcond.1; omega
        refine ⟨hpos, ?_⟩
        have hv := (fromDouble_micros u).2.1 (hu u rfl)
        have hrange := add_range _ _ hn hv
        rcases hcr with h' | h'
        · omega
        · have := (less_micros _ _ hrange.2 h').2 (by simpa using hcond.2)
          rw [add_micros, (fromDouble_micros u).1] at this
          exact this
  · intro hu'
    subst hu'
    rw [hr]
    rfl

/-- **C194, the time left.** Before the deadline, `select` gets exactly the time that is left; after it, the wait has expired (a user timeout of zero or less
    polls once instead). -/
theorem C194_left (tt now : Time) (user : Option Rat) (ht : 0 ≤ tt.sec) (htu : 0 ≤ tt.usec ∧ tt.usec ≤ 1000000) (hn : now.Valid) :
    (now.micros < tt.micros → ∃ l : Time, getTimeoutLeft tt user now false = (false, some l) ∧ l.micros = tt.micros - now.micros ∧ 0 ≤ l.sec ∧ 0 ≤ l.usec ∧ l.usec ≤ 1000000) ∧
    (tt.micros < now.micros → (∀ u, user = some u → 0 < u) → getTimeoutLeft tt user now false = (true, none)) ∧
    (tt.micros < now.micros → ∀ u, user = some u → u ≤ 0 → getTimeoutLeft tt user now false = (false, some ⟨0, 0⟩)) := by
  obtain ⟨n1, n2, n3⟩ := hn
  have hm := sub_micros tt now
  have hrange : 0 ≤ (tt.sub now).usec ∧ (tt.sub now).usec ≤ 1000000 := by unfold Time.sub; split <;> simp only <;> omega
  unfold Time.micros at hm
  have hpos : ¬ tt.sec < 0 := by omega
  refine ⟨fun h => ?_, fun h hu => ?_, fun h u hu hle => ?_⟩
  · unfold Time.micros at h
    have h0 : ¬ (tt.sub now).sec < 0 := by
      intro hneg
      unfold Time.sub at hneg
      split at hneg <;> simp only at hneg <;> omega
    refine ⟨tt.sub now, ?_, sub_micros tt now, by omega, hrange.1, hrange.2⟩
    unfold getTimeoutLeft
    simp [hpos, h0]
  · unfold Time.micros at h
    have h0 : (tt.sub now).sec < 0 := by omega
    have hno : ¬ ∃ u, user = some u ∧ u ≤ 0 := by
      rintro ⟨u, h1, h2⟩
      exact absurd h2 (not_le.2 (hu u h1))
    unfold getTimeoutLeft
    simp only [hpos, ↓reduceIte, h0, hno, and_false, true_or]
  · unfold Time.micros at h
    have h0 : (tt.sub now).sec < 0 := by omega
    have hyes : ∃ u, user = some u ∧ u ≤ 0 := ⟨u, hu, hle⟩
    unfold getTimeoutLeft
    simp only [hpos, ↓reduceIte, h0, hyes, and_self]
    simp

/-- **C194, the user timeout on return.** It has become smaller by the time that passed, but not negative. -/
theorem C194_user_timeout (u : Rat) (start finish : Time) :
    updateUser u start finish = max 0 (u - ((finish.micros - start.micros : Int) : Rat) / 1000000) := by
  have h : toDouble (finish.sub start) = ((finish.micros - start.micros : Int) : Rat) / 1000000 := by
    have := (C194_arithmetic (finish.sub start) start 0).2.2.2.2
    rw [sub_micros] at this
    rw [← this]; ring
  unfold updateUser
  simp only [h]
  split
  · rename_i h'; exact (max_eq_left (le_of_lt h')).symm
  · rename_i h'; exact (max_eq_right (not_lt.1 h')).symm

/-- The full claim about what `select` gets: a valid timeval whenever the clock shows a valid time. -/
def SelectGetsValid : Prop :=
  ∀ (timeout : Rat) (start now : Time), start.Valid → now.Valid → start.micros ≤ now.micros → ∀ l : Time,
    (getTimeoutLeft (getTimeoutTime timeout start ⟨-1, -1⟩ none start).2.1 none now false).2 = some l → l.Valid

/-- **C194, refuted.** A process started at 5.5 s with a timeout of 10.5 s: at 7.0 s `select` is given 8 s and 1000000 µs, which POSIX does not allow
    (EINVAL; the code then kills the children and reports an error). `Add` carries only above 1000000. -/
theorem C194_refuted : ¬ SelectGetsValid := by
  intro h
  have := h (21 / 2) ⟨5, 500000⟩ ⟨7, 0⟩ (by simp [Time.Valid]) (by simp [Time.Valid]) (by decide) ⟨8, 1000000⟩ (by decide +kernel)
  simp [Time.Valid] at this

/-- **C194, partial.** Unless the microseconds of the deadline add up to exactly 1000000, `select` gets a valid timeval. -/
theorem C194_select_partial (tt now l : Time) (user : Option Rat) (ht : 0 ≤ tt.usec ∧ tt.usec < 1000000) (hn : now.Valid)
    (h : (getTimeoutLeft tt user now false).2 = some l) : l.Valid := by
  obtain ⟨n1, n2, n3⟩ := hn
  have hrange : 0 ≤ (tt.sub now).usec ∧ (tt.sub now).usec < 1000000 := by unfold Time.sub; split <;> simp only <;> omega
  unfold getTimeoutLeft at h
  by_cases h1 : tt.sec < 0
  · simp [h1] at h
  · simp only [h1, ↓reduceIte] at h
    by_cases h2 : (tt.sub now).sec < 0 ∧ ∃ u, user = some u ∧ u ≤ 0
    · simp only [h2, and_self, ↓reduceIte] at h
      simp at h
      subst h
      simp [Time.Valid]
    · simp only [h2, ↓reduceIte] at h
      by_cases h3 : (tt.sub now).sec < 0
      · simp [h3] at h
      · simp [h3] at h
        subst h
        exact ⟨by omega, hrange⟩

/-- non-vacuity: the user deadline comes first -/
example : getTimeoutTime 10 ⟨100, 0⟩ ⟨-1, -1⟩ (some (3 / 2)) ⟨105, 700000⟩ = (⟨110, 0⟩, ⟨107, 200000⟩, true) := by decide +kernel
/-- non-vacuity: the process deadline comes first -/
example : getTimeoutTime 10 ⟨100, 0⟩ ⟨110, 0⟩ (some 9) ⟨105, 700000⟩ = (⟨110, 0⟩, ⟨110, 0⟩, false) := by decide +kernel

end Vital.Proc
