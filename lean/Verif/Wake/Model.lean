import Verif.Base.Panic

/-!
# Blocked threads and their wakeups (C67)

When a system call blocks, the thread waits on a *condition*: an object whose state is to change, a time, or a signal.
`src/main/host/syscall/syscall_condition.c` installs a timer and a listener and turns whatever fires first into one wakeup task
in the event queue of the host.  This file models the conditions with their reference counts, the queue, the threads with their
signals, and everything that starts, ends or interrupts a wait: notifications, timers, signals, exits and `execve`.

Simplifications, stated once here:
* One host.  The queue holds the tasks of this file only; what other events do (packets, timers of the program) appears as actions
  that may happen at any time.  Tasks of equal time run in the order in which they were queued (C04).
* Notifications of objects are delivered at once; that they are deferred to the end of the running operation is C53.
* The timer of a condition is one task at its time; the intermediate tasks of `Timer` are C26.
* A timeout of `EmulatedTime::MAX`, as in `execve`, is no timeout: a task after the end of the simulation is not queued.
* A process is the set of its threads; one without threads is not running.
* `uid`, `cut`, `notified`, `held`, `execd`, `odd` and `log` are ghosts: they are read by theorems only.
-/

namespace Shadow.Wake

open Shadow.Base

/-- What a condition waits for: nothing, bits of the state of a file, a futex, a child
(`TriggerType`, `src/main/host/syscall/syscall_condition.h`). -/
inductive Trig where
  | none
  | file (o : Nat) (mask : BitVec 16)
  | futex
  | child
deriving DecidableEq, Repr

/-- `struct _SysCallCondition` (`syscall_condition.c:22-47`).  `timer`: the timer object exists, and holds a reference;
`armed`: it has not fired; `listening`: `triggerListener` is set, and holds a reference; `freed`: the magic was cleared and the
memory freed.  Ghosts: `uid`, the thread that waits; `cut`: the wait was ended by something else than this condition's wakeup;
`notified`: its futex or child listener was called; `held`: it is the delay of a result that is there already (C66). -/
structure Cond where
  trig : Trig := .none
  timeout : Option Nat := none
  pid : Nat := 0
  tid : Nat := 0
  refs : Nat := 0
  timer : Bool := false
  armed : Bool := false
  listening : Bool := false
  sched : Bool := false
  freed : Bool := false
  uid : Nat := 0
  cut : Bool := false
  notified : Bool := false
  held : Bool := false
deriving DecidableEq, Repr

/-- A thread: identifiers, `Thread::cond`, and its pending and blocked signals in shared memory (`src/main/host/thread.rs:36-75`).
`uid` is a ghost that `execve` does not change. -/
structure Th where
  uid : Nat
  pid : Nat
  tid : Nat
  cond : Option Nat := none
  pend : List Nat := []
  blocked : List Nat := []
deriving DecidableEq, Repr

/-- Tasks of the event queue: `_syscallcondition_trigger`, the expiration of a condition's timer, the first run of a thread
(`process.rs:574-588`, `host.rs:430-440`), and the second half of `execve` (`handler/unistd.rs:794-827`). -/
inductive Task where
  | wake (c : Nat)
  | timer (c : Nat)
  | start (pid tid : Nat)
  | exec (pid tid : Nat)
deriving DecidableEq, Repr

/-- Is it an `execve` of that process? -/
def Task.execOf (pid : Nat) : Task → Bool
  | .exec p _ => p = pid
  | _ => false

/-- Why a thread was resumed, for the log. -/
inductive Why where
  | wake (c : Nat)
  | start
  | exec
deriving DecidableEq, Repr

/-- The host.  `ppend`: pending signals of processes; `cur`: the thread that runs; `next`: `thread_id_counter`. -/
structure St where
  now : Nat := 0
  queue : List (Nat × Task) := []
  conds : Nat → Cond := fun _ => {}
  nc : Nat := 0
  objs : Nat → BitVec 16 := fun _ => 0
  ths : List Th := []
  ppend : List (Nat × Nat) := []
  cur : Option Nat := none
  next : Nat := 0
  execd : List Nat := []
  odd : Bool := false
  log : List (Nat × Why) := []

/-- Change of one condition. -/
def St.upd (s : St) (c : Nat) (f : Cond → Cond) : St :=
  { s with conds := fun i => if i = c then f (s.conds c) else s.conds i }

/-- Change of one thread. -/
def St.updTh (s : St) (u : Nat) (f : Th → Th) : St :=
  { s with ths := s.ths.map fun t => if t.uid = u then f t else t }

/-- `_syscallcondition_scheduleWakeupTask` (`syscall_condition.c:420-450`). -/
def St.sched (s : St) (c : Nat) : R St :=
  if (s.conds c).freed then .panic
  else if (s.conds c).sched then .ok s
  else .ok { s.upd c (fun k => { k with refs := k.refs + 1, sched := true }) with
    queue := s.queue ++ [(s.now, .wake c)] }

/-- `syscallcondition_unref` and `_syscallcondition_free` (`syscall_condition.c:170-231`). -/
def St.unref (s : St) (c : Nat) : R St :=
  if (s.conds c).freed then .panic
  else if (s.conds c).refs = 0 then .panic
  else .ok (s.upd c (fun k => { k with refs := k.refs - 1, freed := decide (k.refs = 1) }))

/-- The first half of `_syscallcondition_cleanupListeners` (`syscall_condition.c:122-130`): the timer is disarmed and dropped, which
drops its reference. -/
def St.dropTimer (s : St) (c : Nat) : R St :=
  if (s.conds c).timer then (s.upd c fun k => { k with timer := false, armed := false }).unref c else .ok s

/-- Its second half (`syscall_condition.c:132-168`): the listener is removed from the object and dropped. -/
def St.dropListener (s : St) (c : Nat) : R St :=
  if (s.conds c).listening then (s.upd c fun k => { k with listening := false }).unref c else .ok s

/-- `syscallcondition_cancel` (`syscall_condition.c:572-575`). -/
def St.cancel (s : St) (c : Nat) : R St :=
  if (s.conds c).freed then .panic else do
    let s ← s.dropTimer c
    s.dropListener c

/-- `process_getThread` by process and thread identifier. -/
def St.lookup (s : St) (pid tid : Nat) : Option Th :=
  s.ths.find? fun t => t.pid = pid && t.tid = tid

/-- `host_getThread`: any thread of the host with that identifier. -/
def St.lookupTid (s : St) (tid : Nat) : Option Th :=
  s.ths.find? fun t => t.tid = tid

/-- The thread with a ghost identifier. -/
def St.byUid (s : St) (u : Nat) : Option Th :=
  s.ths.find? fun t => t.uid = u

/-- `Thread::unblocked_signal_pending` (`thread.rs:576-600`). -/
def St.pending (s : St) (t : Th) : Bool :=
  t.pend.any (fun g => !t.blocked.contains g) ||
    s.ppend.any (fun pg => pg.1 = t.pid && !t.blocked.contains pg.2)

/-- `_syscallcondition_statusIsValid` (`syscall_condition.c:306-340`). -/
def St.statusIsValid (s : St) (k : Cond) : Bool :=
  match k.trig with
  | .file o m => s.objs o &&& m ≠ 0
  | .futex => true
  | .child => true
  | .none => false

/-- `_syscallcondition_satisfied` (`syscall_condition.c:342-358`). -/
def St.satisfied (s : St) (k : Cond) (t : Th) : Bool :=
  (match k.timeout with
   | some x => decide (x ≤ s.now)
   | none => false) || s.statusIsValid k || s.pending t

/-- `Process::resume` and `Thread::resume` up to the moment the program runs (`process.rs:1221-1262`, `thread.rs:513-527`): the
condition is cancelled but kept until the thread blocks again.  The ghost `cut` records that another's wakeup ended the wait. -/
def St.run (s : St) (t : Th) (why : Why) : R St := do
  let s := { s with cur := some t.uid, log := s.log ++ [(t.uid, why)] }
  match t.cond with
  | none => .ok s
  | some c =>
    let s := if why = .wake c then s else s.upd c fun k => { k with cut := true }
    s.cancel c

/-- `_syscallcondition_trigger` (`syscall_condition.c:360-418`).  The reference of the task is dropped either before the thread is
resumed or, if it is not, when the task is freed. -/
def St.trigger (s : St) (c : Nat) : R St :=
  if (s.conds c).freed then .panic else
    let s := s.upd c fun k => { k with sched := false }
    match s.lookup (s.conds c).pid (s.conds c).tid with
    | none => s.unref c
    | some t =>
      if s.satisfied (s.conds c) t then do
        let s ← s.unref c
        let s := { s with odd := s.odd || decide (t.cond ≠ some c) }
        s.run t (.wake c)
      else s.unref c

/-- `_syscallcondition_notifyTimeoutExpired` from the timer of a condition (`syscall_condition.c:464-475`, `timer.rs:99-142`): a timer
that was dropped or disarmed does nothing. -/
def St.expire (s : St) (c : Nat) : R St :=
  if (s.conds c).timer && (s.conds c).armed then
    (s.upd c fun k => { k with armed := false }).sched c
  else .ok s

/-- A thread leaves: `Drop for Thread` and `Thread::cleanup_syscall_condition` (`thread.rs:275-285`, `:603-610`), after it was taken
out of the list of threads. -/
def St.dropTh (s : St) (t : Th) : R St := do
  let s := { s with ths := s.ths.filter fun x => x.uid ≠ t.uid }
  match t.cond with
  | none => .ok s
  | some c => do
    let s := s.upd c fun k => { k with cut := true }
    let s ← s.cancel c
    s.unref c

/-- Several threads leave. -/
def St.dropAll (s : St) : List Th → R St
  | [] => .ok s
  | t :: ts => do
    let s ← s.dropTh t
    s.dropAll ts

/-- The task of `execve`: `Process::update_for_exec` and the resume after it (`handler/unistd.rs:802-824`, `process.rs:1772-1830`).
All threads but the calling one leave; it takes the identifier of the leader. -/
def St.finishExec (s : St) (pid tid : Nat) : R St :=
  if s.ths.any (fun t => t.pid = pid) then
    match s.lookup pid tid with
    | none => .panic
    | some t => do
      let s ← s.dropAll (s.ths.filter fun x => x.pid = pid && x.uid ≠ t.uid)
      let s := s.updTh t.uid fun x => { x with tid := pid }
      let s := { s with execd := pid :: s.execd }
      match s.lookup pid pid with
      | none => .ok s
      | some t => s.run t .exec
  else .ok s

/-- The task of a new thread: `host.resume(pid, tid)`. -/
def St.startTh (s : St) (pid tid : Nat) : R St :=
  match s.lookup pid tid with
  | none => .ok s
  | some t => s.run t .start

/-- The index of the earliest task, the first of several. -/
def minIdx : List (Nat × Task) → Nat
  | [] => 0
  | a :: q =>
    match q[minIdx q]? with
    | none => 0
    | some b => if a.1 ≤ b.1 then 0 else minIdx q + 1

/-- One event of the host: the clock is set to its time and its task runs (`host.rs` `execute`, C04). -/
def St.event (s : St) : Option (R St) :=
  match s.queue[minIdx s.queue]? with
  | none => none
  | some (t, task) =>
    let s := { s with queue := s.queue.eraseIdx (minIdx s.queue), now := t }
    some (match task with
      | .wake c => s.trigger c
      | .timer c => s.expire c
      | .start p x => s.startTh p x
      | .exec p x => s.finishExec p x)

/-- `syscallcondition_waitNonblock` on a new condition of thread `t` (`syscall_condition.c:477-570`), the result of
`syscallcondition_new` with one reference. -/
def St.wait (s : St) (t : Th) (trig : Trig) (timeout : Option Nat) (held : Bool) : St :=
  let k : Cond :=
    { trig := trig, timeout := timeout, pid := t.pid, tid := t.tid, uid := t.uid, held := held
      refs := 1 + (if timeout.isSome then 1 else 0) + 1
      timer := timeout.isSome, armed := timeout.isSome, listening := true }
  { (s.updTh t.uid fun x => { x with cond := some s.nc }) with
    conds := fun i => if i = s.nc then k else s.conds i
    nc := s.nc + 1
    cur := none
    queue := match timeout with
      | some x => s.queue ++ [(x, .timer s.nc)]
      | none => s.queue }

/-- The end of `Thread::resume` (`thread.rs:529-538`): the old condition is dropped. -/
def St.dropOld (s : St) (t : Th) : R St :=
  match t.cond with
  | none => .ok s
  | some c => (s.updTh t.uid fun x => { x with cond := none }).unref c

/-- A system call of the running thread blocks (`thread.rs:527-548`). -/
def St.block (s : St) (t : Th) (trig : Trig) (timeout : Option Nat) (held : Bool) : R St := do
  let s ← s.dropOld t
  .ok (s.wait { t with cond := none } trig timeout held)

/-- `_statuslistener_shouldNotify` with the filter `SLF_OFF_TO_ON` (`status_listener.c:100-122`). -/
def shouldNotify (monitoring current transitions : BitVec 16) : Bool :=
  (monitoring &&& transitions ≠ 0) && (monitoring &&& current ≠ 0)

/-- The listeners of a file are told of a change, in order of creation (`_syscallcondition_notifyStatusChanged`,
`syscall_condition.c:452-462`). -/
def St.tell (s : St) (o : Nat) (old new : BitVec 16) : List Nat → R St
  | [] => .ok s
  | c :: cs => do
    let k := s.conds c
    let s ← match k.trig with
      | .file o' m =>
        if k.listening && o' = o && shouldNotify m new (old ^^^ new) then s.sched c else .ok s
      | _ => .ok s
    s.tell o old new cs

/-- The state of a file changes. -/
def St.setObj (s : St) (o : Nat) (new : BitVec 16) : R St :=
  let old := s.objs o
  { s with objs := fun i => if i = o then new else s.objs i }.tell o old new (List.range s.nc)

/-- A futex or child listener is called (`SLF_ALWAYS`). -/
def St.notify (s : St) (c : Nat) : R St :=
  (s.upd c fun k => { k with notified := true }).sched c

/-- `syscallcondition_wakeupForSignal` (`syscall_condition.c:577-596`), through the thread that has the condition.  The thread is looked
up by its identifier; `none` would be dereferenced. -/
def St.wakeupForSignal (s : St) (c g : Nat) : R (St × Bool) :=
  if (s.conds c).freed then .panic else
    match s.lookupTid (s.conds c).tid with
    | none => .panic
    | some t => if t.blocked.contains g then .ok (s, false) else do
      let s ← s.sched c
      .ok (s, true)

/-- `signal_thread` (`handler/signal.rs:155-243`), called by the running thread `me`; an ignored signal does not come this far. -/
def St.signalTh (s : St) (me : Nat) (t : Th) (g : Nat) : R St :=
  if t.pend.contains g then .ok s else
    let s := s.updTh t.uid fun x => { x with pend := g :: x.pend }
    if me = t.uid then .ok s
    else if t.blocked.contains g then .ok s
    else match t.cond with
      | none => .ok s
      | some c => do
        let (s, b) ← s.wakeupForSignal c g
        R.assert b
        .ok s

/-- `RunnableProcess::interrupt_with_signal` (`process.rs:483-507`) over the threads of the process. -/
def St.interrupt (s : St) (g : Nat) : List Th → R St
  | [] => .ok s
  | t :: ts =>
    if t.blocked.contains g then s.interrupt g ts
    else match t.cond with
      | none => s.interrupt g ts
      | some c => do
        let (s, _) ← s.wakeupForSignal c g
        .ok s

/-- `RunnableProcess::signal` (`process.rs:517-570`); `cur` is the thread that calls it, if there is one. -/
def St.signalProc (s : St) (cur : Option Th) (pid g : Nat) : R St :=
  if s.ppend.contains (pid, g) then .ok s else
    let s := { s with ppend := (pid, g) :: s.ppend }
    match cur with
    | some t =>
      if t.pid = pid && !t.blocked.contains g then .ok s
      else s.interrupt g (s.ths.filter fun x => x.pid = pid)
    | none => s.interrupt g (s.ths.filter fun x => x.pid = pid)

/-- What can happen.  `block`, `exec`, `exit`, `exitAll`, `clone`, `fork`, `mask`, `take`, `killTh` are done by the running thread;
`kill` by it or by an event; `spawn` starts an application (`host.rs:380-440`); `event` is the next task of the queue; `tick` is time that passes before that. -/
inductive Act where
  | event
  | tick (d : Nat)
  | obj (o : Nat) (v : BitVec 16)
  | notify (c : Nat)
  | block (trig : Trig) (timeout : Option Nat) (held : Bool)
  | exec
  | exit
  | exitAll
  | clone
  | fork
  | spawn
  | mask (l : List Nat)
  | take (g : Nat)
  | killTh (u g : Nat)
  | kill (pid g : Nat)
deriving DecidableEq, Repr

/-- The running thread. -/
def St.me (s : St) : Option Th :=
  match s.cur with
  | none => none
  | some u => s.byUid u

/-- A new thread of process `pid` (`process.rs:574-588`): its first run is queued. -/
def St.addTh (s : St) (pid : Nat) (t : Th) : St :=
  { s with
    ths := s.ths ++ [{ uid := s.next, pid := pid, tid := s.next, blocked := t.blocked }]
    next := s.next + 1
    queue := s.queue ++ [(s.now, .start pid s.next)] }

/-- One step.  `none`: the action is not possible in this state.  At the end of a process (`process.rs:1504-1520`) the running thread leaves
before the others here, where the code goes by identifier; nothing depends on it. -/
def step (s : St) : Act → Option (R St)
  | .event => if s.cur.isNone then s.event else none
  | .tick d => some (.ok { s with now := s.now + d })
  | .obj o v => some (s.setObj o v)
  | .notify c => some (s.notify c)
  | .block trig timeout held => s.me.map fun t => s.block t trig timeout held
  | .exec => s.me.map fun t =>
      let s := { s with
        queue := s.queue ++ [(s.now, Task.exec t.pid t.tid)]
        odd := s.odd || s.queue.any (·.2.execOf t.pid) }
      s.block t .none none false
  | .exit => s.me.map fun t => do
      let s ← s.dropOld t
      .ok { s with ths := s.ths.filter fun x => x.uid ≠ t.uid, cur := none }
  | .exitAll => s.me.map fun t => do
      let s ← s.dropOld t
      let s := { s with ths := s.ths.filter fun x => x.uid ≠ t.uid, cur := none }
      s.dropAll (s.ths.filter fun x => x.pid = t.pid)
  | .clone => s.me.map fun t => .ok (s.addTh t.pid t)
  | .fork => s.me.map fun t => .ok (s.addTh s.next t)
  | .spawn => if s.cur.isNone then some (.ok (s.addTh s.next { uid := 0, pid := 0, tid := 0 })) else none
  | .mask l => s.me.map fun t => .ok (s.updTh t.uid fun x => { x with blocked := l })
  | .take g => s.me.map fun t => .ok
      { (s.updTh t.uid fun x => { x with pend := x.pend.filter (· ≠ g) }) with
        ppend := s.ppend.filter (· ≠ (t.pid, g)) }
  | .killTh u g => s.me.bind fun m => (s.byUid u).map fun t => s.signalTh m.uid t g
  | .kill pid g => some (s.signalProc s.me pid g)

/-- The contract.  Time passes only up to the next task (C04, C66).  A call blocks on bits that are off and until a time that is not past, and not
while a signal is waiting that it could take, except to hold back its result (C66).  A program takes its signals before its next
call (`process_signals` runs at every return), so it does not end or change its mask before.  Futexes and children call the
listeners they have. -/
def allowed (s : St) : Act → Prop
  | .tick d => ∀ q ∈ s.queue, s.now + d ≤ q.1
  | .notify c => (s.conds c).listening = true ∧ ((s.conds c).trig = .futex ∨ (s.conds c).trig = .child)
  | .block trig timeout held =>
      (∀ o m, trig = .file o m → s.objs o &&& m = 0) ∧
      (∀ x, timeout = some x → s.now ≤ x) ∧
      (held = true → trig = .none ∧ timeout.isSome = true) ∧
      (held = false → ∀ t, s.me = some t → s.pending t = false)
  | .exec => ∀ t, s.me = some t → s.pending t = false
  | .exit => ∀ t, s.me = some t → s.pending t = false
  | .mask _ => ∀ t, s.me = some t → s.pending t = false
  | .kill pid _ => ∃ t ∈ s.ths, t.pid = pid
  | _ => True

/-- A host before its applications start. -/
def init : St := {}

/-- The executions. -/
inductive Run : St → Prop where
  | init : Run init
  | step {s s' a} : Run s → allowed s a → step s a = some (.ok s') → Run s'

end Shadow.Wake
