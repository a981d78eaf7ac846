import Verif.Timer.Model
/-!
# Sleeping and alarms: `nanosleep`, `clock_nanosleep`, `alarm`, `getitimer`, `setitimer`

Source: `/repo/src/main/host/syscall/handler/time.rs`.  The timer of a process is the model of `host/timer.rs` in `Verif/Timer` (C26); its
callback sends `SIGALRM` (`process.rs:890-906`).  A sleeping thread waits on a condition with a timeout (`syscall_condition.c`; its own
life is the subject of C67).

Not modelled: pointers that cannot be read or written (`EFAULT`), and a program that changes the request in its memory while it sleeps.
-/
namespace Shadow.Sleep

open Shadow.Base
open Shadow.Time

def EINTR : Nat := 4
def EINVAL : Nat := 22
def ENOTSUP : Nat := 95

/-! ## Sleeping -/

/-- A call: `nanosleep(req, rem)` or `clock_nanosleep(clock, flags, req, rem)`.  `rem` says whether the pointer for the remaining time is given. -/
inductive Call where
  | nano (req : Int × Int) (rem : Bool)
  | clock (id : Int) (flags : BitVec 32) (req : Int × Int) (rem : Bool)
deriving DecidableEq, Repr

/-- What a run of a handler ends with: a return to the program, with the remaining time if it is written, or the wish to wait. -/
inductive Out where
  | ret (errno : Nat) (rem : Option (Int × Int))
  | block (until_ : Nat)
deriving DecidableEq, Repr

/-- `ClockNanosleepFlags::from_bits_truncate` and `from_bits` (time.rs:271-275); is the time absolute? `TIMER_ABSTIME` is 1. -/
def flagsOf (flags : BitVec 32) (unspec : Bool) : Option Bool :=
  if unspec then some (flags.getLsbD 0)
  else if flags = 0 then some false
  else if flags = 1 then some true
  else none

/-- `nanosleep_helper` (time.rs:262-317).  `cond` is the timeout of the condition from which the thread was woken.  The sums and the
difference panic outside the range of the clock. -/
def helper (now : Nat) (cond : Option Nat) (flags : BitVec 32) (req : Int × Int) (rem unspec : Bool) : R Out :=
  match Sim.tryFromTimespec req.1 req.2 with
  | none => .ok (.ret EINVAL none)
  | some d =>
    match flagsOf flags unspec with
    | none => .ok (.ret EINVAL none)
    | some abs => do
      let wake ← R.unwrap (Emu.checkedAdd (if abs then 0 else now) d)
      if wake ≤ now then .ok (.ret 0 none)
      else match cond with
        | none => .ok (.block wake)
        | some e =>
          if e ≤ now then .ok (.ret 0 none)
          else if rem && !abs then do
            let left ← R.unwrap (Emu.durationSince e now)
            let ts ← R.unwrap (Sim.toTimespec left)
            .ok (.ret EINTR (some ts))
          else .ok (.ret EINTR none)

/-- `nanosleep` and `clock_nanosleep` (time.rs:200-260).  Clocks are numbered as in Linux: 0 `REALTIME`, 1 `MONOTONIC`,
2 `PROCESS_CPUTIME_ID`, 3 `THREAD_CPUTIME_ID`, 4 `MONOTONIC_RAW`, 5 `REALTIME_COARSE`, 6 `MONOTONIC_COARSE`, 7 `BOOTTIME`, 8 `REALTIME_ALARM`,
9 `BOOTTIME_ALARM`, 10 `SGI_CYCLE`, 11 `TAI`. -/
def handle (now : Nat) (cond : Option Nat) : Call → R Out
  | .nano req rem => helper now cond 0 req rem false
  | .clock id flags req rem =>
    if id ∈ [1, 0, 7, 11, 8, 9] then helper now cond flags req rem (!(decide (id ∈ [8, 9])))
    else if id = 3 then .ok (.ret EINVAL none)
    else if id ∈ [4, 5, 6] then .ok (.ret ENOTSUP none)
    else if id = 2 then .ok (.ret ENOTSUP none)
    else .ok (.ret EINVAL none)

/-- A thread that sleeps: its call, the timeout of its condition, whether its wakeup is scheduled.  `start` is for the statements. -/
structure Wait where
  call : Call
  deadline : Nat
  sched : Bool := false
  start : Nat
deriving DecidableEq, Repr

/-- A call that has returned. -/
structure Ret where
  call : Call
  start : Nat
  time : Nat
  errno : Nat
  rem : Option (Int × Int)
deriving DecidableEq, Repr

structure St where
  now : Nat
  sig : Bool := false
  wait : Option Wait := none
  log : List Ret := []
deriving DecidableEq, Repr

/-- The handler runs, and the thread returns or waits.  If it would wait but a signal is pending, it returns `EINTR` instead (`handler/mod.rs:244-254`).
A condition with a time in the past is a failed assertion (`timer.rs:198`). -/
def St.run (s : St) (c : Call) (cond : Option Nat) (start : Nat) : R St := do
  match ← handle s.now cond c with
  | .ret e rem => .ok { s with wait := none, log := s.log ++ [⟨c, start, s.now, e, rem⟩] }
  | .block t =>
    if s.sig then .ok { s with wait := none, log := s.log ++ [⟨c, start, s.now, EINTR, none⟩] }
    else do
      R.assert (decide (s.now ≤ t))
      .ok { s with wait := some { call := c, deadline := t, start } }

inductive Act where
  | call (c : Call)
  /-- the task that wakes the thread runs -/
  | wake
  /-- an unblocked signal for the thread is there, and it is woken for it -/
  | signal
  /-- the signals that were there are gone -/
  | take
  | tick (d : Nat)

/-- `_syscallcondition_trigger` (`syscall_condition.c:359-420`) is the step `wake`: without a reason to run, the wait goes on. -/
def step (s : St) : Act → Option (R St)
  | .call c => if s.wait.isNone then some (s.run c none s.now) else none
  | .wake => match s.wait with
    | some w =>
      if w.sched || decide (w.deadline ≤ s.now) then
        some (if decide (w.deadline ≤ s.now) || s.sig then s.run w.call (some w.deadline) w.start
          else .ok { s with wait := some { w with sched := false } })
      else none
    | none => none
  | .signal => some (.ok { s with sig := true, wait := s.wait.map fun w => { w with sched := true } })
  | .take => some (.ok { s with sig := false })
  | .tick d => some (.ok { s with now := s.now + d })

/-- The contract: time passes only up to the next task of the queue, which a scheduled wakeup and an expired timer are (C04, C66, C67). -/
def allowed (s : St) : Act → Prop
  | .tick d => s.now + d ≤ emuMax ∧ ∀ w, s.wait = some w → w.sched = false ∧ s.now + d ≤ w.deadline
  | _ => True

inductive Run : St → Prop where
  | init {t : Nat} {sig : Bool} : simStart ≤ t → t ≤ emuMax → Run { now := t, sig }
  | step {s s' a} : Run s → allowed s a → step s a = some (.ok s') → Run s'

/-! ## The timer of a process -/

/-- `kernel_old_itimerval`: the interval and the value, each seconds and microseconds. -/
structure ITimer where
  interval : Int × Int
  value : Int × Int
deriving DecidableEq, Repr

/-- `kernel_old_itimerval_from_timer` (time.rs:13-26). -/
def report (x : Timer.World) : R ITimer := do
  let interval ← R.unwrap (Sim.toTimeval (x.timer.interval.getD 0))
  let value ← R.unwrap (Sim.toTimeval (x.remaining.getD 0))
  .ok ⟨interval, value⟩

/-- `getitimer` (time.rs:35-57).  0 is `ITIMER_REAL`. -/
def getitimer (x : Timer.World) (which : Int) : R (Except Nat ITimer) :=
  if which = 0 then do
    let v ← report x
    .ok (.ok v)
  else .ok (.error EINVAL)

/-- What a call of `setitimer` does: to the timer, to the memory at `old_value`, and its result. -/
structure Set where
  world : Timer.World
  old : Option ITimer
  errno : Nat
deriving DecidableEq, Repr

/-- `setitimer` (time.rs:66-110).  `old` says whether `old_value` is given; `same` that it is the pointer `new_value`, so that what is read from there is what
was written before. -/
def setitimer (x : Timer.World) (which : Int) (new : ITimer) (old same : Bool) : R Set :=
  if which = 0 then do
    let before ← (if old then do
        let v ← report x
        .ok (some v)
      else .ok none : R (Option ITimer))
    let new := if same then before.getD new else new
    match Sim.tryFromTimeval new.value.1 new.value.2 with
    | none => .ok ⟨x, before, EINVAL⟩
    | some v =>
      match Sim.tryFromTimeval new.interval.1 new.interval.2 with
      | none => .ok ⟨x, before, EINVAL⟩
      | some i =>
        if v = 0 then .ok ⟨x.disarm, before, 0⟩
        else do
          let t ← R.unwrap (Emu.checkedAdd x.now v)
          let y ← x.arm t (if 0 < i then some i else none)
          .ok ⟨y, before, 0⟩
  else .ok ⟨x, none, EINVAL⟩

/-- The rounding of `alarm` (time.rs:121-148). -/
def alarmSecs : Option Nat → Nat
  | some t =>
    let secs :=
      if t / 1000000000 = 0 then 1
      else if t % 1000000000 / 1000000 > 500 then t / 1000000000 + 1
      else t / 1000000000
    if secs ≤ 4294967295 then secs else 4294967295
  | none => 0

/-- `alarm` (time.rs:117-164): the timer after it and the result.  `seconds` is a `c_uint`. -/
def alarm (x : Timer.World) (seconds : Nat) : R (Timer.World × Nat) := do
  let prev := alarmSecs x.remaining
  if seconds = 0 then .ok (x.disarm, prev)
  else do
    let d ← R.unwrap (Sim.tryFromSecs seconds)
    let t ← R.unwrap (Emu.checkedAdd x.now d)
    let y ← x.arm t none
    .ok (y, prev)

end Shadow.Sleep
