import Verif.Base.Panic

/-!
# Emulated signals

Model of the signal machinery of one emulated process: the sets of pending signals kept for
the process and for each of its threads (`src/lib/shadow-shim-helper-rs/src/shim_shmem.rs`),
sending (`src/main/host/process.rs`, `src/main/host/syscall/handler/signal.rs`), the loop of the
shim that runs the handlers (`src/lib/shim/src/signals.rs`), and the parts of the blocking
system calls that signals interrupt (`src/main/host/syscall/handler/mod.rs:245-253`,
`src/main/host/syscall/syscall_condition.c:345-480`, 577-595).

A thread is named by its position in the list of threads, which is in the order of the thread
numbers, the order of the `BTreeMap` that the code walks.  A thread that has ended stays in the
list with status `gone`.
-/
namespace Shadow.Signal
open Shadow.Base

/-! ## Signal sets (`src/lib/linux-api/src/signal.rs`) -/

/-- `sigset_t`, one bit per signal (signal.rs:807-824). -/
abbrev Sigset := BitVec 64

/-- `Signal::try_from`: signal numbers are 1 to 64 (signal.rs:26-36). -/
def ofInt (v : Int) : Option Nat := if 1 ≤ v ∧ v ≤ 64 then some v.toNat else none

/-- `Signal::is_realtime` (signal.rs:105-107); `SIGRT_MIN` is 32. -/
def isRealtime (sig : Nat) : Bool := decide (32 ≤ sig) && decide (sig ≤ 64)

/-- `sigset_t::from` (signal.rs:861-868). -/
def single (sig : Nat) : Sigset := 1#64 <<< (sig - 1)

/-- `sigset_t::has` (signal.rs:831-833). -/
def has (s : Sigset) (sig : Nat) : Bool := s &&& single sig != 0#64

/-- `sigset_t::add` (signal.rs:856-858). -/
def add (s : Sigset) (sig : Nat) : Sigset := s ||| single sig

/-- `sigset_t::del` (signal.rs:852-854). -/
def del (s : Sigset) (sig : Nat) : Sigset := s &&& ~~~ (single sig)

/-- `sigset_t::lowest` (signal.rs:835-846).  The `unreachable!` behind the loop is the `none` of
the search, which the callers unwrap. -/
def lowest (s : Sigset) : Option Nat :=
  if s = 0#64 then none else ((List.range 64).map (· + 1)).find? fun i => has s i

/-! ## Actions -/

/-- `SignalHandler` (signal.rs:988-1000).  The functions of the program are numbered. -/
inductive Handler where
  | dfl
  | ign
  | fn (n : Nat)
deriving DecidableEq, Repr

/-- The parts of `struct sigaction` that matter here (signal.rs:1040-1165). -/
structure Action where
  handler : Handler := .dfl
  /-- `SA_NODEFER` -/
  nodefer : Bool := false
  /-- `SA_RESETHAND` -/
  resethand : Bool := false
  /-- `SA_RESTART` -/
  restart : Bool := false
  /-- `SA_ONSTACK` -/
  onstack : Bool := false
  mask : Sigset := 0#64
deriving DecidableEq, Repr

/-- `LinuxDefaultAction` (signal.rs:1193-1201). -/
inductive Default where
  | term | ign | core | stop | cont
deriving DecidableEq, Repr

/-- `defaultaction` (signal.rs:1203-1251), by the numbers of the signals on x86-64. -/
def defaultAction (sig : Nat) : Default :=
  if sig = 18 then .cont
  else if sig ∈ [6, 7, 8, 4, 3, 11, 31, 5, 24, 25] then .core
  else if sig ∈ [17, 23, 28] then .ign
  else if sig ∈ [19, 20, 21, 22] then .stop
  else .term

/-- A signal whose arrival has no effect: `SIG_IGN`, or the default action when that is to ignore
(process.rs:534-543; the same test in handler/signal.rs:192-201). -/
def ignored (act : Action) (sig : Nat) : Bool :=
  match act.handler with
  | .fn _ => false
  | .ign => true
  | .dfl => defaultAction sig == .ign

/-! ## State -/

/-- `siginfo_t`: the number of the signal and the rest, of which we only keep a tag. -/
structure Info where
  signo : Int
  tag : Nat := 0
deriving DecidableEq, Repr

/-- `stack_t`: address, the flags `SS_DISABLE`, `SS_ONSTACK`, `SS_AUTODISARM`, any other flags,
and the size. -/
structure Stack where
  sp : Nat := 0
  disable : Bool := true
  onstack : Bool := false
  autodisarm : Bool := false
  other : Bool := false
  size : Nat := 0
deriving DecidableEq, Repr

/-- Pending signals with their information, as kept for the process (shim_shmem.rs:198-222) and
for each thread (shim_shmem.rs:330-350).  `infos` is the array `pending_standard_siginfos`; that it
has only 31 entries is checked where it is indexed. -/
structure Pend where
  set : Sigset := 0#64
  infos : Nat → Info := fun _ => ⟨0, 0⟩

/-- One activation of `process_signals` on the stack of a thread: the value of `restartable`, what
has to be restored when the handler that is running returns, and (a history variable) the actions
whose handlers were run. -/
structure Activation where
  restart : Bool := true
  frame : Option (Sigset × Stack) := none
  ran : List Action := []
deriving DecidableEq, Repr

/-- What a thread is doing.  `asleep b`: blocked in a system call, with the `wakeupScheduled` of
its condition.  `fresh`: created but not run yet, so without a condition. -/
inductive Status where
  | fresh
  | running
  | asleep (scheduled : Bool)
  | gone
deriving DecidableEq, Repr

structure Thread where
  pend : Pend := {}
  blocked : Sigset := 0#64
  stack : Stack := {}
  status : Status := .fresh
  acts : List Activation := []

/-- The process: `dead` is the signal it was ended by (`die_with_fatal_signal`). -/
structure St where
  pend : Pend := {}
  actions : Nat → Action := fun _ => {}
  threads : List Thread := []
  dead : Option Nat := none

/-! ## Pending sets (`shim_shmem.rs`) -/

/-- `set_pending_standard_siginfo` (shim_shmem.rs:241-244 and 362-365): the signal must be pending,
and the array has 31 entries. -/
def Pend.setInfo (p : Pend) (sig : Nat) (i : Info) : R Pend := do
  R.assert (has p.set sig)
  R.assert (sig - 1 < 31)
  .ok { p with infos := fun n => if n = sig then i else p.infos n }

/-- Adding a signal with its information (process.rs:553-554, handler/signal.rs:210-217). -/
def Pend.push (p : Pend) (sig : Nat) (i : Info) : R Pend :=
  { p with set := add p.set sig }.setInfo sig i

/-- `pending_standard_siginfo` (shim_shmem.rs:233-239 and 354-360). -/
def Pend.info (p : Pend) (sig : Nat) : R (Option Info) :=
  if has p.set sig then do
    R.assert (sig - 1 < 31)
    .ok (some (p.infos sig))
  else .ok none

/-- `take_pending_unblocked_signal` of the process (shim_shmem.rs:281-294) and of a thread
(shim_shmem.rs:383-395), which differ only in whose pending set is used. -/
def Pend.take (p : Pend) (blocked : Sigset) : R (Option ((Nat × Info) × Pend)) :=
  if p.set &&& ~~~ blocked = 0#64 then .ok none
  else do
    let sig ← R.unwrap (lowest (p.set &&& ~~~ blocked))
    let i ← p.info sig
    let i ← R.unwrap i
    .ok (some ((sig, i), { p with set := del p.set sig }))

/-- Where a signal was pending: on the process, or on a thread. -/
inductive Queue where
  | process
  | thread (i : Nat)
deriving DecidableEq, Repr

/-- The free function `take_pending_unblocked_signal`: thread-directed signals first
(shim_shmem.rs:420-432). -/
def take (p : Pend) (t : Thread) : R (Option ((Nat × Info) × Bool × Pend)) := do
  match ← t.pend.take t.blocked with
  | some (x, q) => .ok (some (x, true, q))
  | none =>
    match ← p.take t.blocked with
    | some (x, q) => .ok (some (x, false, q))
    | none => .ok none

/-- `unblocked_signal_pending` (thread.rs:575-597). -/
def unblockedPending (p : Pend) (t : Thread) : Bool :=
  (t.pend.set ||| p.set) &&& ~~~ t.blocked != 0#64

/-! ## Sending -/

/-- `syscallcondition_wakeupForSignal` (syscall_condition.c:577-595): not scheduled when blocked;
scheduling twice is one wake-up (424-452). -/
def wakeupForSignal (t : Thread) (sig : Nat) : Bool × Thread :=
  if has t.blocked sig then (false, t) else (true, { t with status := .asleep true })

/-- The loop of `interrupt_with_signal` (process.rs:483-508): the first thread that does not block
the signal and has a condition. -/
def interrupt (sig : Nat) : List Thread → List Thread
  | [] => []
  | t :: ts =>
    if has t.blocked sig then t :: interrupt sig ts
    else match t.status with
      | .asleep _ => (wakeupForSignal t sig).2 :: ts
      | _ => t :: interrupt sig ts

/-- What happened, for the statements about whole executions. -/
inductive Ev where
  /-- a signal became pending -/
  | sent (q : Queue) (sig : Nat) (i : Info)
  /-- a thread took a pending signal to act on it -/
  | took (t : Nat) (q : Queue) (sig : Nat) (i : Info)
deriving DecidableEq, Repr

/-- `RunnableProcess::signal` (process.rs:518-572).  `cur` is the calling thread when it belongs to
this process. -/
def procSignal (s : St) (cur : Option Nat) (i : Info) : R (St × List Ev) :=
  match ofInt i.signo with
  | none => if i.signo = 0 then .ok (s, []) else .panic
  | some sig =>
    if ignored (s.actions sig) sig then .ok (s, [])
    else if has s.pend.set sig then .ok (s, [])
    else do
      let p ← s.pend.push sig i
      let s := { s with pend := p }
      match cur.bind (s.threads[·]?) with
      | some t =>
        if has t.blocked sig then
          .ok ({ s with threads := interrupt sig s.threads }, [.sent .process sig i])
        else .ok (s, [.sent .process sig i])
      | none => .ok ({ s with threads := interrupt sig s.threads }, [.sent .process sig i])

/-- The result of a system call. -/
inductive Ret where
  | ok
  | EINVAL | ENOTSUP | ESRCH | EFAULT | EPERM
deriving DecidableEq, Repr

/-- `signal_process` for a running process (handler/signal.rs:66-92): what `kill` does once it has
found the target. -/
def signalProcess (s : St) (cur : Option Nat) (signo : Int) (tag : Nat) : R (Ret × St × List Ev) :=
  if signo = 0 then .ok (.ok, s, [])
  else match ofInt signo with
  | none => .ok (.EINVAL, s, [])
  | some sig =>
    if isRealtime sig then .ok (.ENOTSUP, s, [])
    else do
      let (s, e) ← procSignal s cur ⟨signo, tag⟩
      .ok (.ok, s, e)

/-- `signal_thread` (handler/signal.rs:152-250): `tkill` and `tgkill` once they have found the target
thread `k`.  `cur` is the calling thread when it belongs to this process. -/
def signalThread (s : St) (cur : Option Nat) (k : Nat) (t : Thread) (signo : Int) (tag : Nat) :
    R (Ret × St × List Ev) :=
  if signo = 0 then .ok (.ok, s, [])
  else match ofInt signo with
  | none => .ok (.EINVAL, s, [])
  | some sig =>
    if isRealtime sig then .ok (.ENOTSUP, s, [])
    else if ignored (s.actions sig) sig then .ok (.ok, s, [])
    else if has t.pend.set sig then .ok (.ok, s, [])
    else do
      let p ← t.pend.push sig ⟨signo, tag⟩
      let t := { t with pend := p }
      let s := { s with threads := s.threads.set k t }
      let e := [Ev.sent (.thread k) sig ⟨signo, tag⟩]
      if cur = some k then .ok (.ok, s, e)
      else if has t.blocked sig then .ok (.ok, s, e)
      else match t.status with
        | .asleep _ => do
          let (was, t) := wakeupForSignal t sig
          R.assert was
          .ok (.ok, { s with threads := s.threads.set k t }, e)
        | _ => .ok (.ok, s, e)

/-- The first half of `handle_hardware_error_signal_inner` (signals.rs:362-374), for an error raised
by the code of the program: a signal that is already pending is reported and dropped. -/
def hardwareError (s : St) (k : Nat) (t : Thread) (sig : Nat) (tag : Nat) : R (St × List Ev) :=
  if has t.pend.set sig then .ok (s, [])
  else do
    let p ← t.pend.push sig ⟨sig, tag⟩
    .ok ({ s with threads := s.threads.set k { t with pend := p } },
      [.sent (.thread k) sig ⟨sig, tag⟩])

/-! ## Masks, actions and stacks -/

/-- An argument that points into the memory of the program: null, a fault, or a value. -/
inductive Arg (α : Type) where
  | null
  | fault
  | val (a : α)
deriving DecidableEq, Repr

/-- `rt_sigprocmask` (handler/signal.rs:316-363).  `oset` tells whether the old mask is wanted and
whether writing it works.  The result: what is returned, the old mask if it was written, the
thread. -/
def sigprocmask (t : Thread) (how : Int) (nset : Arg Sigset) (oset : Arg Unit) (size : Nat) :
    Ret × Option Sigset × Thread :=
  if size ≠ 8 then (.EINVAL, none, t)
  else match oset with
  | .fault => (.EFAULT, none, t)
  | o =>
    let old := match o with | .val _ => some t.blocked | _ => none
    match nset with
    | .null => (.ok, old, t)
    | .fault => (.EFAULT, old, t)
    | .val set =>
      if how = 0 then (.ok, old, { t with blocked := set ||| t.blocked })
      else if how = 1 then (.ok, old, { t with blocked := ~~~ set &&& t.blocked })
      else if how = 2 then (.ok, old, { t with blocked := set })
      else (.EINVAL, old, t)

/-- `rt_sigaction` (handler/signal.rs:260-305). -/
def sigaction (s : St) (signo : Int) (act : Arg Action) (oact : Arg Unit) (size : Nat) :
    Ret × Option Action × St :=
  if size ≠ 8 then (.EINVAL, none, s)
  else match ofInt signo with
  | none => (.EINVAL, none, s)
  | some sig =>
    match oact with
    | .fault => (.EFAULT, none, s)
    | o =>
      let old := match o with | .val _ => some (s.actions sig) | _ => none
      match act with
      | .null => (.ok, old, s)
      | a =>
        if sig = 9 ∨ sig = 19 then (.EINVAL, old, s)
        else match a with
        | .val new =>
          (.ok, old, { s with actions := fun n => if n = sig then new else s.actions n })
        | _ => (.EFAULT, old, s)

/-- `sigaltstack` (handler/signal.rs:371-420). -/
def sigaltstack (t : Thread) (uss : Arg Stack) (uoss : Arg Unit) : Ret × Option Stack × Thread :=
  let old := t.stack
  let out (t : Thread) : Ret × Option Stack × Thread :=
    match uoss with
    | .null => (.ok, none, t)
    | .fault => (.EFAULT, none, t)
    | .val _ => (.ok, some old, t)
  match uss with
  | .null => out t
  | u =>
    if old.onstack then (.EPERM, none, t)
    else match u with
    | .val new =>
      let new := if new.disable then ({} : Stack) else new
      if new.onstack || new.other then (.EINVAL, none, t)
      else out { t with stack := new }
    | _ => (.EFAULT, none, t)

/-- What an `exec` does with the actions (process.rs:1838-1867): standard signals with a handler go
back to the default, ignored and default ones stay.  The loop visits the standard signals only. -/
def execActions (actions : Nat → Action) : Nat → Action := fun sig =>
  if 1 ≤ sig ∧ sig ≤ 31 then
    match (actions sig).handler with
    | .fn _ => {}
    | _ => actions sig
  else actions sig

/-! ## Running the handlers (`src/lib/shim/src/signals.rs`) -/

/-- The mask while the handler runs (signals.rs:153-159). -/
def maskDuring (act : Action) (sig : Nat) (orig : Sigset) : Sigset :=
  let m := act.mask ||| orig
  if act.nodefer then m else add m sig

/-- The alternate stack while the handler runs (signals.rs:186-221). -/
def stackDuring (act : Action) (orig : Stack) : Stack :=
  if act.onstack && !orig.disable then
    if orig.autodisarm then {} else { orig with onstack := true }
  else orig

/-- What an iteration of the loop of `process_signals` led to. -/
inductive Out where
  /-- no signal left: the function returns this `restartable` -/
  | done (restart : Bool)
  /-- a signal was taken that is ignored meanwhile -/
  | skipped (sig : Nat)
  /-- the handler `n` starts, with this information -/
  | handler (n : Nat) (sig : Nat) (i : Info)
  /-- the process ends -/
  | died (sig : Nat)
deriving DecidableEq, Repr

/-- One iteration of the loop of `process_signals` (signals.rs:117-312), up to the call of the
handler; `a` is the current activation and `as` are the ones below. -/
def deliver (s : St) (k : Nat) (t : Thread) (a : Activation) (as : List Activation) :
    R (Out × St × List Ev) := do
  match ← take s.pend t with
  | none => .ok (.done a.restart, { s with threads := s.threads.set k { t with acts := as } }, [])
  | some ((sig, i), own, q) =>
    let t := if own then { t with pend := q } else t
    let s := if own then s else { s with pend := q }
    let e := [Ev.took k (if own then .thread k else .process) sig i]
    let act := s.actions sig
    match act.handler with
    | .ign => .ok (.skipped sig, { s with threads := s.threads.set k t }, e)
    | .dfl =>
      match defaultAction sig with
      | .ign => .ok (.skipped sig, { s with threads := s.threads.set k t }, e)
      | .core | .term =>
        .ok (.died sig, { s with threads := s.threads.set k t, dead := some sig }, e)
      | .stop | .cont => .panic
    | .fn n =>
      let a := { a with
        restart := if act.restart then a.restart else false
        frame := some (t.blocked, t.stack)
        ran := a.ran ++ [act] }
      let t := { t with
        blocked := maskDuring act sig t.blocked
        stack := stackDuring act t.stack
        acts := a :: as }
      let actions := if act.resethand then
        fun m => if m = sig then ({} : Action) else s.actions m else s.actions
      .ok (.handler n sig i, { s with threads := s.threads.set k t, actions := actions }, e)

/-- The handler returned: the mask and the stack are restored (signals.rs:326-340). -/
def handlerReturn (t : Thread) (m : Sigset) (st : Stack) (a : Activation) (as : List Activation) :
    Thread :=
  { t with blocked := m, stack := st, acts := { a with frame := none } :: as }

/-! ## The process as a transition system -/

/-- One step.  Threads are named by position. -/
inductive Act where
  /-- a signal for the process, from `kill`, a timer, an exit of a child, … -/
  | send (cur : Option Nat) (i : Info)
  /-- `kill` on this process -/
  | kill (cur : Option Nat) (signo : Int) (tag : Nat)
  /-- `tkill`/`tgkill` on a thread of this process -/
  | tkill (cur : Option Nat) (k : Nat) (signo : Int) (tag : Nat)
  /-- thread `k` runs into a hardware error -/
  | fault (k : Nat) (sig : Nat) (tag : Nat)
  | mask (k : Nat) (how : Int) (nset : Arg Sigset) (oset : Arg Unit) (size : Nat)
  | action (k : Nat) (signo : Int) (act : Arg Action) (oact : Arg Unit) (size : Nat)
  | altstack (k : Nat) (uss : Arg Stack) (uoss : Arg Unit)
  /-- a thread is created (with an empty mask: shim_shmem.rs:304-328, thread.rs:499-502) -/
  | clone
  /-- a fresh thread starts -/
  | start (k : Nat)
  /-- a system call wants to block (handler/mod.rs:245-253) -/
  | block (k : Nat)
  /-- the object the thread waits for, or the timeout, schedules the wake-up -/
  | notify (k : Nat)
  /-- the scheduled wake-up runs; `ready`: the object is ready or the timeout expired
  (`_syscallcondition_trigger`, syscall_condition.c:345-422) -/
  | trigger (k : Nat) (ready : Bool)
  /-- `process_signals` is called -/
  | enter (k : Nat)
  /-- an iteration of its loop -/
  | deliver (k : Nat)
  /-- the handler returns -/
  | ret (k : Nat)
  /-- thread `k` ends -/
  | exit (k : Nat)
deriving DecidableEq, Repr

def St.put (s : St) (k : Nat) (t : Thread) : St := { s with threads := s.threads.set k t }

/-- The thread `k`, if it is running. -/
def St.running (s : St) (k : Nat) : Option Thread :=
  match s.threads[k]? with
  | some t => if t.status = .running then some t else none
  | none => none

/-- The hardware errors that are handled (signals.rs:404-415): SIGSEGV, SIGILL, SIGBUS, SIGFPE. -/
def isHardware (sig : Nat) : Bool := sig ∈ [11, 4, 7, 8]

/-- `cur` names a running thread, or nobody. -/
def St.curOk (s : St) (cur : Option Nat) : Bool :=
  match cur with
  | none => true
  | some k => (s.running k).isSome

/-- `none`: not possible in this state.  The steps of a thread need it to be running; iterations
of the loop and returns need the activation to be at the right place. -/
def step (s : St) (a : Act) : Option (R (St × List Ev)) :=
  if s.dead.isSome then none
  else match a with
  | .send cur i => if s.curOk cur then some (procSignal s cur i) else none
  | .kill cur signo tag =>
    if s.curOk cur then
      some (do let (_, s, e) ← signalProcess s cur signo tag; .ok (s, e))
    else none
  | .tkill cur k signo tag =>
    match s.threads[k]? with
    | none => none
    | some t =>
      if t.status ≠ .gone ∧ s.curOk cur then
        some (do let (_, s, e) ← signalThread s cur k t signo tag; .ok (s, e))
      else none
  | .fault k sig tag =>
    match s.running k with
    | none => none
    | some t => if isHardware sig then some (hardwareError s k t sig tag) else none
  | .mask k how nset oset size =>
    (s.running k).map fun t => .ok (s.put k (sigprocmask t how nset oset size).2.2, [])
  | .action k signo act oact size =>
    (s.running k).map fun _ => .ok ((sigaction s signo act oact size).2.2, [])
  | .altstack k uss uoss =>
    (s.running k).map fun t => .ok (s.put k (sigaltstack t uss uoss).2.2, [])
  | .clone => some (.ok ({ s with threads := s.threads ++ [{}] }, []))
  | .start k =>
    match s.threads[k]? with
    | some t => if t.status = .fresh then some (.ok (s.put k { t with status := .running }, []))
      else none
    | none => none
  | .block k =>
    (s.running k).map fun t =>
      if unblockedPending s.pend t then .ok (s, [])
      else .ok (s.put k { t with status := .asleep false }, [])
  | .notify k =>
    match s.threads[k]? with
    | some t =>
      match t.status with
      | .asleep _ => some (.ok (s.put k { t with status := .asleep true }, []))
      | _ => none
    | none => none
  | .trigger k ready =>
    match s.threads[k]? with
    | some t =>
      if t.status = .asleep true then
        if ready || unblockedPending s.pend t then
          some (.ok (s.put k { t with status := .running }, []))
        else some (.ok (s.put k { t with status := .asleep false }, []))
      else none
    | none => none
  | .enter k =>
    (s.running k).map fun t => .ok (s.put k { t with acts := {} :: t.acts }, [])
  | .deliver k =>
    match s.running k with
    | some t =>
      match t.acts with
      | a :: as =>
        if a.frame = none then some (do let (_, s, e) ← deliver s k t a as; .ok (s, e)) else none
      | [] => none
    | none => none
  | .ret k =>
    match s.running k with
    | some t =>
      match t.acts with
      | a :: as =>
        match a.frame with
        | some (m, st) => some (.ok (s.put k (handlerReturn t m st a as), []))
        | none => none
      | [] => none
    | none => none
  | .exit k => (s.running k).map fun t => .ok (s.put k { t with status := .gone }, [])

/-- Executions from a state, with what happened. -/
inductive Run (s₀ : St) : List Ev → St → Prop where
  | nil : Run s₀ [] s₀
  | step {es s a s' e} : Run s₀ es s → step s a = some (.ok (s', e)) → Run s₀ (es ++ e) s'

/-- A new process: nothing pending, one thread that has not run yet (process.rs:1128-1140 via
`ProcessShmem::new` and `ThreadShmem::new`); a forked process starts with the actions of its
parent (handler/clone.rs:290-301). -/
def fresh (actions : Nat → Action) : St := { actions := actions, threads := [{}] }

end Shadow.Signal
