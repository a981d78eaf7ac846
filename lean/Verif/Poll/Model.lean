import Verif.Base.Panic
/-!
# Waiting for several files: `poll`, `ppoll`, `select`, `pselect6`

The handlers of `src/main/host/syscall/handler/poll.c` and `select.c`, with the epoll object of
`src/main/host/descriptor/epoll.c` that each thread has for them and the condition on which a call
waits (`syscall_condition.c`; its own life is the subject of C67).  One thread calls; files,
descriptors, signals and the clock change around it as other threads and the network make them.

Not modelled: the memory of the program that holds the arrays (a call sees the same array each time
its handler runs, and `EFAULT` does not occur); the signal mask argument, which the code ignores.
-/
namespace Shadow.Poll

open Shadow.Base

/-- The bits of `struct pollfd` (`poll.h` of Linux). -/
abbrev Bits := BitVec 16
def POLLIN : Bits := 1
def POLLOUT : Bits := 4
def POLLERR : Bits := 8
def POLLNVAL : Bits := 32
def EINTR : Int := 4
def EBADF : Int := 9
def EINVAL : Int := 22

/-- `a & b` as a truth value of C. -/
def has (a b : Bits) : Bool := a &&& b != 0

/-- The bits of `FileState` that matter here (`src/main/host/descriptor/mod.rs`). -/
structure FileSt where
  active : Bool := false
  readable : Bool := false
  writable : Bool := false
  closed : Bool := false
deriving DecidableEq, Repr

/-- `struct pollfd`. -/
structure Pfd where
  fd : Int
  events : Bits
  revents : Bits := 0
deriving DecidableEq, Repr

/-- `struct timespec`. -/
structure Ts where
  sec : Int
  nsec : Int
deriving DecidableEq, Repr

/-- What the kernel under Shadow says: which files are regular files (`DT_FILE`) and what its own
`poll` answers for them (`regularfile_poll`, `regular_file.c:1002-1017`; `none` is an error). -/
structure Env where
  reg : Nat → Bool
  os : Nat → Bits → Option Bits

/-- `EpollWatch` (`epoll.c:69-91`): its key, a descriptor number and a file, and the events it waits for. The cached
status flags are recomputed from the file each time they are read (`_epollwatch_updateStatus`), so they are left out. -/
structure Watch where
  fd : Int
  obj : Nat
  wantIn : Bool
  wantOut : Bool
deriving DecidableEq, Repr

def Watch.key (w : Watch) : Int × Nat := (w.fd, w.obj)

/-- `struct _Epoll` (`epoll.c:103-117`): the two tables and the `READABLE` bit of the epoll as a file. -/
structure Epoll where
  watching : List Watch := []
  ready : List (Int × Nat) := []
  bit : Bool := false
deriving DecidableEq, Repr

/-- A call that waits: its arguments, the timeout of its condition and whether the wakeup is scheduled (`wakeupScheduled`).
The rest is for the statements: when the call was made, whether another thread has changed a descriptor of the
call since, and whether a signal that was there has gone to another thread since. -/
structure Wait where
  fds : List Pfd
  timeout : Option Ts
  deadline : Option Nat
  sched : Bool := false
  start : Nat
  moved : Bool := false
  taken : Bool := false
deriving DecidableEq, Repr

/-- A call that has returned. -/
structure Ret where
  fds : List Pfd
  timeout : Option Ts
  start : Nat
  time : Nat
  res : Int
  out : List Pfd
deriving DecidableEq, Repr

structure St where
  now : Nat := 0
  files : Nat → FileSt := fun _ => {}
  tbl : Nat → Option Nat := fun _ => none
  sig : Bool := false
  ep : Epoll := {}
  wait : Option Wait := none
  log : List Ret := []

/-! ## The epoll object -/

/-- `_epollwatch_isReady` (`epoll.c:390-428`), for a watch without `EPOLLET` and `EPOLLONESHOT`, which `poll` does not use. -/
def isReady (f : FileSt) (w : Watch) : Bool :=
  !f.closed && f.active && ((f.readable && w.wantIn) || (f.writable && w.wantOut))

/-- `_epoll_fileStatusChanged` (`epoll.c:738-776`). -/
def Epoll.changed (ep : Epoll) (files : Nat → FileSt) (k : Int × Nat) : Epoll :=
  match ep.watching.find? (·.key == k) with
  | none => { ep with bit := !ep.ready.isEmpty }
  | some w =>
    let ready :=
      if isReady (files w.obj) w then (if ep.ready.contains k then ep.ready else k :: ep.ready)
      else ep.ready.filter (· != k)
    let watching := if (files w.obj).closed then ep.watching.filter (·.key != k) else ep.watching
    { watching, ready, bit := !ready.isEmpty }

/-- `epoll_reset` (`epoll.c:311-317`).  It does not touch the `READABLE` bit. -/
def Epoll.reset (ep : Epoll) : Epoll := { ep with watching := [], ready := [] }

/-- `epoll_control` with `EPOLL_CTL_ADD` (`epoll.c:463-547`); the caller ignores its answer. -/
def Epoll.add (ep : Epoll) (files : Nat → FileSt) (w : Watch) : Epoll :=
  if (files w.obj).closed then ep
  else if ep.watching.any (·.key == w.key) then ep
  else { ep with watching := ep.watching ++ [w] }.changed files w.key

/-! ## The handler -/

/-- `_syscallhandler_getPollEventsHelper` (`poll.c:29-61`). -/
def fileEvents (E : Env) (o : Nat) (f : FileSt) (ev : Bits) : Bits :=
  if E.reg o then (E.os o ev).getD POLLERR
  else
    (if f.closed && !f.active then POLLNVAL else 0) |||
    (if has ev POLLIN && f.active && f.readable then POLLIN else 0) |||
    (if has ev POLLOUT && f.active && f.writable then POLLOUT else 0)

/-- One turn of the loop of `_syscallhandler_getPollEvents` (`poll.c:66-89`). -/
def check (E : Env) (s : St) (p : Pfd) : Pfd :=
  { p with revents :=
      if p.fd < 0 then 0
      else match s.tbl p.fd.toNat with
        | some o => fileEvents E o (s.files o) p.events
        | none => POLLNVAL }

/-- `_syscallhandler_getPollEvents` (`poll.c:63-92`): the array after it, of which the nonzero entries are counted. -/
def checkAll (E : Env) (s : St) (fds : List Pfd) : List Pfd := fds.map (check E s)

def numReady (fds : List Pfd) : Nat := fds.countP (·.revents != 0)

/-- The loop of `_syscallhandler_registerPollFDs` (`poll.c:98-121`).  `none` is the null descriptor of its assertion. -/
def register (s : St) (ep : Epoll) : List Pfd → R Epoll
  | [] => .ok ep
  | p :: l =>
    if p.fd < 0 then register s ep l
    else match s.tbl p.fd.toNat with
      | none => .panic
      | some o =>
        let wi := has p.events POLLIN
        let wo := has p.events POLLOUT
        register s (if wi || wo then ep.add s.files ⟨p.fd, o, wi, wo⟩ else ep) l

/-- `now + tv_sec * SIMTIME_ONE_SECOND + tv_nsec * SIMTIME_ONE_NANOSECOND` in `uint64_t` (`poll.c:155-157`). -/
def deadlineOf (now : Nat) (t : Ts) : Nat := (((now : Int) + t.sec * 1000000000 + t.nsec) % 2 ^ 64).toNat

/-- `EMUTIME_INVALID` (`emulated_time.rs:29`): a condition with this time has no timeout. -/
def noTime : Nat := 2 ^ 64 - 1

/-- The end of `_syscallhandler_pollHelper` (`poll.c:168-171`). -/
def St.done (s : St) (fds : List Pfd) (timeout : Option Ts) (start : Nat) (res : Int) (out : List Pfd) : St :=
  { s with ep := s.ep.reset, wait := none, log := s.log ++ [⟨fds, timeout, start, s.now, res, out⟩] }

/-- `_syscallhandler_pollHelper` (`poll.c:124-172`) and, if it blocks, `syscallcondition_waitNonblock`
(`syscall_condition.c:480-505`).  `cond` is the timeout of the condition from which the call was woken
(`did_listen_timeout_expire`, `handler/mod.rs:657-669`).  Arming the timer at a time that is past is a failed assertion, in
`Timer::arm` (`timer.rs:198`) or in the event queue (`event_queue.rs:33`).  `start`, `moved` and `taken` are only passed on. -/
def St.poll (E : Env) (s : St) (fds : List Pfd) (timeout : Option Ts) (cond : Option Nat) (start : Nat)
    (moved taken : Bool) : R St :=
  let out := checkAll E s fds
  let n := numReady out
  if n = 0 then
    if timeout = some ⟨0, 0⟩ || cond.any (· ≤ s.now) then .ok (s.done fds timeout start 0 out)
    else if s.sig then .ok (s.done fds timeout start (-EINTR) out)
    else do
      let ep ← register s s.ep.reset fds
      let deadline := match timeout with
        | some t =>
          if t.sec > 0 || t.nsec > 0 then
            (if deadlineOf s.now t = noTime then none else some (deadlineOf s.now t))
          else none
        | none => none
      R.assert (deadline.all (s.now ≤ ·))
      .ok { s with ep, wait := some { fds, timeout, deadline, start, moved, taken } }
  else .ok (s.done fds timeout start n out)

/-- `_syscallcondition_trigger` (`syscall_condition.c:359-420`) with `_syscallcondition_satisfied` (340-357): if there is no reason
to run, the wait goes on. -/
def St.wake (E : Env) (s : St) (w : Wait) : R St :=
  if w.deadline.any (· ≤ s.now) || s.ep.bit || s.sig then
    s.poll E w.fds w.timeout w.deadline w.start w.moved w.taken
  else .ok { s with wait := some { w with sched := false } }

/-! ## The world around the call -/

/-- `_syscallcondition_scheduleWakeupTask` (`syscall_condition.c:422-455`). -/
def St.sched (s : St) : St := { s with wait := s.wait.map fun w => { w with sched := true } }

/-- The epoll tells the condition that its bit went on (`SLF_OFF_TO_ON`, `syscall_condition.c:517-522`). -/
def St.setEp (s : St) (ep : Epoll) : St :=
  if !s.ep.bit && ep.bit then { s with ep }.sched else { s with ep }

/-- The listeners of the watches at a file are called one after the other. -/
def St.tell (s : St) : List (Int × Nat) → St
  | [] => s
  | k :: l => (s.setEp (s.ep.changed s.files k)).tell l

/-- The status of a file changes (`legacyfile_adjustStatus` and `FileState` in the Rust files). -/
def St.setFile (s : St) (o : Nat) (f : FileSt) : St :=
  if f = s.files o then s
  else
    let keys := (s.ep.watching.filter (·.obj == o)).map Watch.key
    St.tell { s with files := fun i => if i = o then f else s.files i } keys

inductive Act where
  /-- the thread calls, with an array and a timeout -/
  | call (fds : List Pfd) (timeout : Option Ts)
  /-- the task that wakes the thread runs -/
  | wake
  | file (o : Nat) (f : FileSt)
  /-- a descriptor is opened, closed or replaced -/
  | fd (i : Nat) (o : Option Nat)
  /-- an unblocked signal for the thread is there, and it is woken for it -/
  | signal
  /-- the signals that were there are gone -/
  | take
  | tick (d : Nat)

/-- Does the call ask about descriptor `i`? -/
def asks (fds : List Pfd) (i : Nat) : Bool := fds.any (·.fd == (i : Int))

def step (E : Env) (s : St) : Act → Option (R St)
  | .call fds timeout => if s.wait.isNone then some (s.poll E fds timeout none s.now false false) else none
  | .wake => match s.wait with
    | some w => if w.sched || w.deadline.any (· ≤ s.now) then some (s.wake E w) else none
    | none => none
  | .file o f => some (.ok (s.setFile o f))
  | .fd i o => some (.ok
      { s with
        tbl := fun j => if j = i then o else s.tbl j
        wait := s.wait.map fun w => { w with moved := w.moved || (asks w.fds i && o != s.tbl i) } })
  | .signal => some (.ok { s with sig := true }.sched)
  | .take => some (.ok { s with sig := false, wait := s.wait.map fun w => { w with taken := true } })
  | .tick d => some (.ok { s with now := s.now + d })

/-- The contract.  A closed file stays closed; a regular file is never readable or writable in Shadow's own status
(`regular_file.c` sets only `ACTIVE`).  Time passes only up to the next task of the queue, which a scheduled wakeup and an
expired timer are (C04, C66, C67), and within 64 bits. -/
def allowed (E : Env) (s : St) : Act → Prop
  | .file o f => ((s.files o).closed = true → f.closed = true) ∧ (E.reg o = true → f.readable = false ∧ f.writable = false)
  | .tick d => s.now + d < noTime ∧ ∀ w, s.wait = some w → w.sched = false ∧ ∀ x, w.deadline = some x → s.now + d ≤ x
  | _ => True

/-- A thread that has made no call yet. -/
structure Init (E : Env) (s : St) : Prop where
  ep : s.ep = {}
  wait : s.wait = none
  log : s.log = []
  now : s.now < noTime
  reg : ∀ o, E.reg o = true → (s.files o).readable = false ∧ (s.files o).writable = false

inductive Run (E : Env) : St → Prop where
  | init {s} : Init E s → Run E s
  | step {s s' a} : Run E s → allowed E s a → step E s a = some (.ok s') → Run E s'

/-! ## The arguments of the calls -/

/-- The timeout of `poll` (`poll.c:203-219`): milliseconds of a C `int`, with the division of C. -/
def ofMillis (ms : Int) : Ts := ⟨ms.tdiv 1000, ms.tmod 1000 * 1000000⟩

/-- The checks of `ppoll` and `pselect6` (`poll.c:245-250`, `select.c:166-175`): negative times are refused. -/
def checkTimeout : Option Ts → Bool
  | some t => !(t.sec < 0 || t.nsec < 0)
  | none => true

/-- The timeout of `select`, a `struct timeval` with microseconds (`select.c:201-215`). -/
def ofTimeval (sec usec : Int) : Ts := ⟨sec, usec * 1000⟩

/-- `FD_SETSIZE`. -/
def FD_SETSIZE : Nat := 1024

/-- `MAX(0, MIN(nfds, FD_SETSIZE))` (`select.c:30`). -/
def nfdsMax (nfds : Int) : Nat := (min nfds FD_SETSIZE).toNat

/-- The entry for descriptor `i` (`select.c:54-79`); the sets are given as predicates. -/
def selectPfd (r w x : Nat → Bool) (i : Nat) : Pfd :=
  { fd := if r i || w i || x i then (i : Int) else -1
    events := (if r i then POLLIN else 0) ||| (if w i then POLLOUT else 0) }

def selectPfds (n : Nat) (r w x : Nat → Bool) : List Pfd := (List.range n).map (selectPfd r w x)

/-- What `select` returns: a number and the three sets, or an error and the sets as they were. -/
structure Sel where
  res : Int
  r : Nat → Bool
  w : Nat → Bool
  x : Nat → Bool

/-- Is bit `i` set, when the entries with `ev` are collected? (`select.c:100-126`) -/
def collect (out : List Pfd) (ev : Bits) (i : Nat) : Bool :=
  match out[i]? with
  | some p => !(p.fd < 0) && has p.revents ev
  | none => false

/-- The second half of `_syscallhandler_select_helper` (`select.c:81-147`), given what the poll returned. -/
def selectRet (res : Int) (out : List Pfd) (r w x : Nat → Bool) : Sel :=
  if res < 0 then ⟨res, r, w, x⟩
  else
    let asked := out.filter fun p => !(p.fd < 0)
    let bits := asked.countP (has ·.revents POLLIN) + asked.countP (has ·.revents POLLOUT)
    let bad := asked.countP (has ·.revents POLLNVAL)
    if bad > 0 then ⟨-EBADF, r, w, x⟩
    else ⟨bits, collect out POLLIN, collect out POLLOUT, fun _ => false⟩

end Shadow.Poll
