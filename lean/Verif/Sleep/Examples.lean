import Verif.Sleep.Timers
/-!
# C73: executions
-/
namespace Shadow.Sleep

open Shadow.Base
open Shadow.Time

def allowedB (s : St) : Act → Bool
  | .tick d => decide (s.now + d ≤ emuMax) &&
      (match s.wait with
       | some w => !w.sched && decide (s.now + d ≤ w.deadline)
       | none => true)
  | _ => true

theorem allowed_of {s : St} {a : Act} (h : allowedB s a = true) : allowed s a := by
  cases a with
  | tick d =>
    simp only [allowedB, Bool.and_eq_true, decide_eq_true_eq] at h
    refine ⟨h.1, fun w hw => ?_⟩
    rw [hw] at h
    simpa using h.2
  | _ => trivial

def execA (s : St) : List Act → Option St
  | [] => some s
  | a :: as =>
    if allowedB s a then
      match step s a with
      | some (.ok s') => execA s' as
      | _ => none
    else none

theorem execA_run {as : List Act} {s s' : St} (h : Run s) (he : execA s as = some s') : Run s' := by
  induction as generalizing s with
  | nil => cases he; exact h
  | cons a as ih =>
    simp only [execA] at he
    split at he
    · rename_i ha
      split at he
      · rename_i s1 h1
        exact ih (.step h (allowed_of ha) h1) he
      · cases he
    · cases he

/-- One second after the start of the simulation. -/
def t0 : Nat := 946684801000000000

def reachedB (as : List Act) (p : St → Bool) : Bool := (execA { now := t0 } as).any p

theorem reached {as : List Act} {p : St → Bool} (h : reachedB as p = true) : ∃ s, Run s ∧ p s = true := by
  unfold reachedB at h
  cases he : execA { now := t0 } as with
  | none => rw [he] at h; cases h
  | some s => rw [he] at h; exact ⟨s, execA_run (.init (by decide) (by decide)) he, h⟩

/-- The last return: how long the call took, its result and the remaining time. -/
def last (s : St) : Option (Nat × Nat × Option (Int × Int)) := s.log.getLast?.map fun r => (r.time - r.start, r.errno, r.rem)

/-! ## The claims at work -/

/-- **C73 at work.**  A sleep of 1.25 s takes just this, although a signal came that another thread has taken. -/
example : ∃ s, Run s ∧ last s = some (1250000000, 0, none) :=
  (reached (as := [.call (.nano (1, 250000000) true), .tick 700000000, .signal, .take, .wake, .tick 550000000, .wake])
    (p := fun s => last s == some (1250000000, 0, none)) (by decide +kernel)).imp fun _ h => ⟨h.1, by simpa using h.2⟩

/-- **C73 at work.**  A signal after 0.7 s leaves 0.55 s. -/
example : ∃ s, Run s ∧ last s = some (700000000, 4, some (0, 550000000)) :=
  (reached (as := [.call (.nano (1, 250000000) true), .tick 700000000, .signal, .wake])
    (p := fun s => last s == some (700000000, 4, some (0, 550000000))) (by decide +kernel)).imp fun _ h => ⟨h.1, by simpa using h.2⟩

/-- **C73 at work.**  A sleep to a point in time, one that is past, one on a clock that cannot be slept on, and one with a bad time. -/
example : ∃ s, Run s ∧ s.log.map (fun r => (r.time - r.start, r.errno)) = [(3, 0), (0, 0), (0, 95), (0, 22)] :=
  (reached (as := [.call (.clock 1 1 (946684801, 3) true), .tick 3, .wake, .call (.clock 0 1 (946684801, 1) true),
      .call (.clock 5 0 (1, 0) true), .call (.nano (1, 1000000000) false)])
    (p := fun s => s.log.map (fun r => (r.time - r.start, r.errno)) == [(3, 0), (0, 0), (0, 95), (0, 22)]) (by decide +kernel)).imp
    fun _ h => ⟨h.1, by simpa using h.2⟩

/-- **C73_wake: not vacuous.**  A thread that sleeps, has a signal, and whose duration fits into the clock. -/
example : ∃ s, Run s ∧ s.sig = true ∧ (s.wait.any fun w => w.sched && decide (w.call.target s.now ≤ 18446744073709551614)) = true :=
  (reached (as := [.call (.nano (1, 250000000) true), .tick 700000000, .signal])
    (p := fun s => s.sig && (s.wait.any fun w => w.sched && decide (w.call.target s.now ≤ 18446744073709551614))) (by decide +kernel)).imp
    fun _ h => ⟨h.1, by simpa using h.2⟩

/-! ## Findings about sleeps -/

/-- **Finding (C73): the remaining time is not written.**  If a signal is pending when the call is made, `EINTR` is returned at once and the remaining time stays
unwritten, although it was asked for. -/
theorem C73_rem_missing : ∃ s, Run s ∧ last s = some (0, 4, none) ∧ (s.log.any fun r => r.call == .nano (1, 0) true) = true :=
  (reached (as := [.signal, .call (.nano (1, 0) true)])
    (p := fun s => last s == some (0, 4, none) && (s.log.any fun r => r.call == .nano (1, 0) true)) (by decide +kernel)).imp
    fun _ h => ⟨h.1, by simpa using h.2⟩

/-- **Finding (C73): a sleep of five centuries stops the simulation.**  The duration is accepted but the sum with the clock is not a time. -/
theorem C73_sleep_panics : ∃ s, Run s ∧ Call.refused (.nano (17500059273, 0) false) = none ∧
    step s (.call (.nano (17500059273, 0) false)) = some .panic :=
  ⟨{ now := t0 }, .init (by decide) (by decide), by decide, by decide +kernel⟩

/-- **Finding (C73): a signal during a long sleep stops the simulation.**  The sum is computed again from the present time when the thread is woken, and then does not fit. -/
theorem C73_wake_panics : ∃ s, Run s ∧ s.wait.isSome = true ∧ step s .wake = some .panic := by
  have h : reachedB [.call (.nano (17500059272, 700000000) false), .tick 900000000, .signal]
      (fun s => s.wait.isSome && step s .wake == some .panic) = true := by decide +kernel
  exact (reached h).imp fun _ h => ⟨h.1, by simpa using h.2⟩

/-! ## Timers -/

open Shadow.Timer (World)

/-- The timer of a new process. -/
def w0 : World := ⟨Timer.Timer.new, t0, t0, t0 + 100000000000, []⟩

theorem w0_run : Timer.Run false w0 ⟨none, 0, []⟩ := .new (by decide) (by decide) (by decide)

/-- **C73 at work.**  `setitimer` with 2.5 s and an interval of 1 s, then `getitimer` 0.2 s later. -/
example : (do
    let r ← setitimer w0 0 ⟨(1, 0), (2, 500000)⟩ true false
    let v ← getitimer { r.world with now := t0 + 200000000 } 0
    .ok (r.errno, r.old, v.toOption)) = .ok (0, some ⟨(0, 0), (0, 0)⟩, some ⟨(1, 0), (2, 300000)⟩) := by decide +kernel

/-- **C73 at work.**  `alarm(5)`, and 1.2 s later `alarm(0)` returns 4. -/
example : (do
    let (x, a) ← alarm w0 5
    let (y, b) ← alarm { x with now := t0 + 1200000000 } 0
    .ok (a, b, y.timer.next)) = .ok (0, 4, none) := by decide +kernel

/-- The theorems apply to this process. -/
example : ∃ r, setitimer w0 0 ⟨(1, 0), (2, 500000)⟩ true false = .ok r ∧
    Timer.Run false r.world ⟨some (t0 + 2500000000, some 1000000000), 0, []⟩ := by
  obtain ⟨r, h1, _, _, _, h5⟩ := (C73_setitimer w0_run 0 ⟨(1, 0), (2, 500000)⟩ true).2 rfl (by decide) (by decide) (fun _ => by decide)
  exact ⟨r, h1, h5 (by decide)⟩

/-- **Finding (C73): a running timer looks stopped.**  With less than a microsecond to go, `getitimer` returns zeros, which mean that no timer is set. -/
theorem C73_getitimer_zero : ∃ x g, Timer.Run false x g ∧ (∀ f ∈ x.pending, x.now < f.time) ∧ x.remaining = some 500 ∧
    getitimer x 0 = .ok (.ok ⟨(0, 0), (0, 0)⟩) := by
  obtain ⟨r, h1, _, _, _, h5⟩ := (C73_setitimer w0_run 0 ⟨(0, 0), (0, 1)⟩ false).2 rfl (by decide) (by decide) (fun _ => by decide)
  have e : setitimer w0 0 ⟨(0, 0), (0, 1)⟩ false false =
      .ok ⟨⟨⟨some (t0 + 1000), none, 0, 1, 0⟩, t0, t0, t0 + 100000000000, [⟨t0 + 1000, 0⟩]⟩, none, 0⟩ := by decide +kernel
  rw [e] at h1
  cases h1
  exact ⟨_, _, (h5 (by decide)).tick (t := t0 + 500) (by decide) (by decide), by decide, by decide +kernel, by
    unfold getitimer; rw [if_pos rfl, show report _ = .ok ⟨(0, 0), (0, 0)⟩ by decide +kernel]; rfl⟩

/-- **Finding (C73): the old value overwrites the new one.**  `setitimer(which, &v, &v)` writes the old value first and then reads it as the new one: a call
that should start a stopped timer reports success and leaves it stopped. -/
theorem C73_setitimer_alias : ∃ r, setitimer w0 0 ⟨(0, 0), (5, 0)⟩ true true = .ok r ∧ r.errno = 0 ∧ r.world.timer.next = none ∧
    r.world.pending = [] := by
  have h : setitimer w0 0 ⟨(0, 0), (5, 0)⟩ true true = .ok ⟨w0.disarm, some ⟨(0, 0), (0, 0)⟩, 0⟩ := by decide +kernel
  exact ⟨_, h, rfl, rfl, rfl⟩

/-- **Finding (C73): a refused call writes the old value.** -/
theorem C73_setitimer_old_on_error : ∃ r, setitimer w0 0 ⟨(0, 0), (5, 1000000)⟩ true false = .ok r ∧ r.errno = 22 ∧ r.old.isSome = true := by
  have h : setitimer w0 0 ⟨(0, 0), (5, 1000000)⟩ true false = .ok ⟨w0, some ⟨(0, 0), (0, 0)⟩, 22⟩ := by decide +kernel
  exact ⟨_, h, rfl, rfl⟩

/-- **Finding (C73): `setitimer` with five centuries stops the simulation.** -/
theorem C73_setitimer_panics : GoodV (17500059273, 0) ∧ setitimer w0 0 ⟨(0, 0), (17500059273, 0)⟩ false false = .panic := by
  constructor
  · decide
  · decide +kernel

/-- **Finding (C73): half a second is rounded down.**  1.5 s before an alarm, `alarm` returns 1; Linux returns 2. -/
theorem C73_alarm_half : alarmSecs (some 1500000000) = 1 ∧ alarmSecs (some 1500999999) = 1 ∧ alarmSecs (some 1501000000) = 2 := by decide

end Shadow.Sleep
