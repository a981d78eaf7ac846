import Verif.Base.Panic

/-!
# Processes of a host: birth, death, waiting, groups and sessions

Model of the process table of a host (`src/main/host/host.rs`), of the life of a process
(`src/main/host/process.rs`), of `wait4` and `waitid` (`src/main/host/syscall/handler/wait.rs`) and of
`setpgid` and `setsid` (`src/main/host/syscall/handler/unistd.rs`).

What a program does is arbitrary: an execution is any sequence of actions of running processes.
Simplified: the program, its memory and its threads other than those that wait for a child are left
out; whether a pointer can be written is an argument of the calls.
-/
namespace Shadow.Procs
open Shadow.Base

/-- `ProcessId::INIT` (process.rs:66). -/
abbrev init : Nat := 1

/-- `SIGCHLD`. -/
abbrev sigchld : Nat := 17

/-- `ExitStatus` (process.rs:119-131) without `StoppedByShadow`: a process stopped by Shadow is not in
the table any more. -/
inductive Exit where
  | normal (code : Nat)
  | signaled (sig : Nat)
deriving DecidableEq, Repr

/-- The parts of `Common` (process.rs:141-175) that matter here, the exit status if the process is a
zombie, and the signals whose action is `SIG_IGN`. -/
structure Proc where
  pid : Nat
  parent : Nat
  group : Nat
  session : Nat
  exitSignal : Option Nat := none
  deathSignal : Option Nat := none
  zombie : Option Exit := none
  ignored : List Nat := []
deriving DecidableEq, Repr

def Proc.running (p : Proc) : Bool := p.zombie.isNone

/-- `WaitFlags` (linux-api wait.rs:7-24); `unknown` stands for any other bit. -/
structure Opts where
  nohang : Bool := false
  untraced : Bool := false
  exited : Bool := false
  continued : Bool := false
  nowait : Bool := false
  nothread : Bool := false
  all : Bool := false
  clone : Bool := false
  unknown : Bool := false
deriving DecidableEq, Repr

/-- A pointer that a call writes to. -/
inductive Ptr where
  | null | good | fault
deriving DecidableEq, Repr

/-- The arguments of a call.  `which`: 0 is `P_ALL`, 1 `P_PID`, 2 `P_PGID`, 3 `P_PIDFD`. -/
inductive Call where
  | wait4 (pid : Int) (status : Ptr) (opts : Opts) (usage : Ptr)
  | waitid (which : Int) (id : Int) (info : Ptr) (opts : Opts) (usage : Ptr)
deriving DecidableEq, Repr

/-- A thread of `owner` blocked in a wait; `woken` once the listener was called. -/
structure Waiter where
  owner : Nat
  call : Call
  woken : Bool := false
deriving DecidableEq, Repr

/-- The table (a `BTreeMap`, host.rs:163) in the order of the pids, the counter of thread ids
(host.rs:152, 245), and the threads that wait. -/
structure St where
  procs : List Proc := []
  next : Nat := 1000
  waiters : List Waiter := []
deriving DecidableEq, Repr

/-- `process_borrow`. -/
def St.find (s : St) (pid : Nat) : Option Proc := s.procs.find? (·.pid = pid)

/-- Change a process. -/
def St.update (s : St) (pid : Nat) (f : Proc → Proc) : St :=
  { s with procs := s.procs.map fun p => if p.pid = pid then f p else p }

inductive Errno where
  | ECHILD | EINVAL | EFAULT | ESRCH | EPERM
deriving DecidableEq, Repr

/-- The fields of a `siginfo_t` about a child. -/
structure Info where
  signo : Nat
  pid : Nat
  code : Nat
  status : Nat
deriving DecidableEq, Repr

/-- `exit_siginfo` (process.rs:794-822): `CLD_EXITED` is 1, `CLD_KILLED` is 2. -/
def exitInfo (pid : Nat) (x : Exit) (signo : Nat) : Info :=
  match x with
  | .normal code => ⟨signo, pid, 1, code⟩
  | .signaled sig => ⟨signo, pid, 2, sig⟩

/-! ## Waiting -/

/-- `WaitTarget` (wait.rs:15-20). -/
inductive Target where
  | pid (p : Nat) | pidFd | pgid (g : Nat) | any
deriving DecidableEq, Repr

/-- `from_waitpid_pid` (wait.rs:32-54).  The negation of the least `i32` is that number again, and its
conversion fails. -/
def fromWaitpid (me : Proc) (pid : Int) : R Target :=
  if pid < 0 then
    if pid = -1 then .ok .any
    else if pid = -2147483648 then .panic
    else .ok (.pgid (-pid).toNat)
  else if pid = 0 then .ok (.pgid me.group)
  else .ok (.pid pid.toNat)

/-- `from_waitid` (wait.rs:56-74), with the conversion of `which` (wait.rs:251): `none` is `EINVAL`,
`some none` a target that cannot be. -/
def fromWaitid (me : Proc) (which id : Int) : Option (Option Target) :=
  if which = 0 then some (some .any)
  else if which = 1 then some (if id < 0 then none else some (.pid id.toNat))
  else if which = 2 then
    some (if id = 0 then some (.pgid me.group) else if id < 0 then none else some (.pgid id.toNat))
  else if which = 3 then some (some .pidFd)
  else none

/-- `WaitTarget::matches` (wait.rs:23-30). -/
def Target.has (t : Target) (p : Proc) : Bool :=
  match t with
  | .pid q => p.pid = q
  | .pidFd => false
  | .pgid g => p.group = g
  | .any => true

/-- The choice by kind of child (wait.rs:94-101). -/
def kind (o : Opts) (p : Proc) : Bool :=
  let isClone := p.exitSignal ≠ some sigchld
  if o.all then true else if o.clone then isClone else !isClone

/-- What a call returns. -/
inductive Ret where
  | ok (v : Nat)
  | err (e : Errno)
  | blocked
deriving DecidableEq, Repr

/-- What a call returns and what it wrote. -/
structure Out where
  ret : Ret
  status : Option Nat := none
  info : Option Info := none
deriving DecidableEq, Repr

/-- The status word (wait.rs:155-164). -/
def statusWord : Exit → Nat
  | .normal i => i <<< 8
  | .signaled s => s

/-- `wait_internal` (wait.rs:78-194).  The second component is the zombie that is removed. -/
def waitInternal (s : St) (me : Proc) (t : Target) (status info : Ptr) (o : Opts) (usage : Ptr) :
    R (Out × Option Proc) := do
  -- matching against a pidfd is not implemented
  R.assert (!(t = .pidFd && s.procs.any (·.parent = me.pid)))
  let children := s.procs.filter fun p => p.parent = me.pid && t.has p && kind o p
  if children.isEmpty then .ok (⟨.err .ECHILD, none, none⟩, none)
  else if !o.exited then
    .ok (⟨if o.nohang then .ok 0 else .blocked, none, none⟩, none)
  else
    match children.find? (fun p => p.zombie.isSome) with
    | none => .ok (⟨if o.nohang then .ok 0 else .blocked, none, none⟩, none)
    | some z =>
      match z.zombie with
      | none => .panic
      | some x =>
        match status with
        | .fault => .ok (⟨.err .EFAULT, none, none⟩, none)
        | _ =>
          let st := if status = .good then some (statusWord x) else none
          match info with
          | .fault => .ok (⟨.err .EFAULT, st, none⟩, none)
          | _ =>
            let inf := if info = .good then some (exitInfo z.pid x sigchld) else none
            match usage with
            | .fault => .ok (⟨.err .EFAULT, st, inf⟩, none)
            | _ => .ok (⟨.ok z.pid, st, inf⟩, if o.nowait then none else some z)

/-- `map(|_| ())` (wait.rs:261): `waitid` returns 0. -/
def zeroRet (r : Out × Option Proc) : Out × Option Proc :=
  ({ r.1 with ret := match r.1.ret with | .ok _ => .ok 0 | e => e }, r.2)

/-- `wait4` (wait.rs:204-235) and `waitid` (wait.rs:246-262). -/
def waitCall (s : St) (me : Proc) : Call → R (Out × Option Proc)
  | .wait4 pid status o usage =>
    if o.unknown then .ok (⟨.err .EINVAL, none, none⟩, none)
    else if o.exited || o.nowait then .ok (⟨.err .EINVAL, none, none⟩, none)
    else do
      let t ← fromWaitpid me pid
      waitInternal s me t status .null { o with exited := true } usage
  | .waitid which id info o usage =>
    match fromWaitid me which id with
    | none => .ok (⟨.err .EINVAL, none, none⟩, none)
    | some none => .ok (⟨.err .ECHILD, none, none⟩, none)
    | some (some t) => do
      let r ← waitInternal s me t .null info o usage
      .ok (zeroRet r)

/-! ## Death -/

/-- Signals sent and the callbacks of the listeners for child events. -/
inductive Ev where
  | signal (target sig : Nat) (info : Info)
  | childEvent (target : Nat)
deriving DecidableEq, Repr

/-- `notify_parent_of_exit` (process.rs:747-788).  A parent that is not running panics in a debug
build (a warning otherwise). -/
def notifyParent (s : St) (p : Proc) (x : Exit) : R (List Ev) :=
  match p.exitSignal with
  | none => .ok []
  | some sig =>
    if p.parent = init then .ok []
    else
      match s.find p.parent with
      | none => .ok []
      | some q => do
        R.assert q.running
        .ok [.signal q.pid sig (exitInfo p.pid x sig), .childEvent q.pid]

/-- `ZombieProcess::reaper` (process.rs:714-745): is there somebody to reap it?  `shmem` of a zombie
panics. -/
def hasReaper (s : St) (p : Proc) : R Bool :=
  if p.parent = init then .ok false
  else
    match s.find p.parent with
    | none => .ok false
    | some q =>
      match p.exitSignal with
      | none => .ok true
      | some sig => do
        R.assert q.running
        .ok (!q.ignored.contains sig)

/-- Wake the threads that wait for a child of the process. -/
def wake (ws : List Waiter) (pid : Nat) : List Waiter :=
  ws.map fun w => if w.owner = pid then { w with woken := true } else w

def wakeAll (ws : List Waiter) : List Ev → List Waiter
  | [] => ws
  | .childEvent q :: es => wakeAll (wake ws q) es
  | _ :: es => wakeAll ws es

/-- The signal about the death of the parent (host.rs:500-516).  `siginfo` is that of `kill` (code 0).
Signals to zombies are dropped (process.rs:1346). -/
def deathEvent (pid : Nat) (c : Proc) : Option Ev :=
  match c.deathSignal with
  | some sig => if c.running then some (.signal c.pid sig ⟨sig, pid, 0, 0⟩) else none
  | none => none

/-- The second half of `Host::resume` for a process that is a zombie (host.rs:462-549): signals about
the death of the parent, reparenting, and removal of the zombies that nobody will reap. -/
def bury (s : St) (p : Proc) : R (St × List Ev) := do
  let reaped ← hasReaper s p
  let children := s.procs.filter (·.parent = p.pid)
  let evs := children.filterMap (deathEvent p.pid)
  let procs := s.procs.map fun c => if c.parent = p.pid then { c with parent := init } else c
  let orphans := (children.filter fun c => c.zombie.isSome).map (·.pid) ++
    (if reaped then [] else [p.pid])
  .ok ({ s with procs := procs.filter fun c => !orphans.contains c.pid }, evs)

/-- The process ends: `handle_process_exit` (process.rs:1504-1600), then the rest of `Host::resume`.
Its threads, and with them its waits, are gone. -/
def die (s : St) (p : Proc) (x : Exit) : R (St × List Ev) := do
  let s := { s with waiters := s.waiters.filter (·.owner ≠ p.pid) }
  let evs ← notifyParent s p x
  let s := { s.update p.pid (fun q => { q with zombie := some x }) with waiters := wakeAll s.waiters evs }
  let (s, evs') ← bury s { p with zombie := some x }
  .ok (s, evs ++ evs')

/-! ## Groups and sessions -/

/-- `process_session_id_of_group_id` (host.rs:971-980). -/
def sessionOfGroup (s : St) (g : Nat) : Option Nat :=
  (s.procs.find? (·.group = g)).map (·.session)

/-- `ProcessId::try_from(pid_t)`. -/
def toPid (v : Int) : Option Nat := if v < 0 then none else some v.toNat

/-- The process that `setpgid` is about (unistd.rs:585-604). -/
def pgidTarget (s : St) (me : Proc) (pid : Int) : Except Errno Proc :=
  if pid = 0 ∨ pid = me.pid then .ok me
  else
    match toPid pid with
    | none => .error .EINVAL
    | some q =>
      match s.find q with
      | none => .error .ESRCH
      | some p => .ok p

/-- `setpgid` (unistd.rs:577-647). -/
def setpgid (s : St) (me : Proc) (pid pgid : Int) : Option Errno × St :=
  match pgidTarget s me pid with
  | .error e => (some e, s)
  | .ok p =>
    if pgid < 0 then (some .EINVAL, s)
    else
      let g := pgid.toNat
      if p.pid ≠ me.pid ∧ p.parent ≠ me.pid then (some .ESRCH, s)
      else if pgid ≠ 0 ∧ sessionOfGroup s g ≠ some p.session then (some .EPERM, s)
      else if p.session ≠ me.session then (some .EPERM, s)
      else if p.session = p.pid then (some .EPERM, s)
      else if pgid ≠ 0 then (none, s.update p.pid fun q => { q with group := g })
      else (none, s.update p.pid fun q => { q with group := p.pid })

/-- `setsid` (unistd.rs:678-697). -/
def setsid (s : St) (me : Proc) : Option Errno × St :=
  if (sessionOfGroup s me.pid).isSome then (some .EPERM, s)
  else (none, s.update me.pid fun q => { q with session := me.pid, group := me.pid })

/-! ## Executions -/

inductive Act where
  /-- Shadow starts a configured process (host.rs:378-427, process.rs:1110-1130) -/
  | spawn
  /-- `clone` without `CLONE_THREAD` (clone.rs:240-268, process.rs:589-684); `ignored`: the signal
  actions the child starts with -/
  | fork (by_ : Nat) (cloneParent : Bool) (exitSignal : Option Nat) (ignored : List Nat)
  /-- a thread is created -/
  | thread
  | setpgid (by_ : Nat) (pid pgid : Int)
  | setsid (by_ : Nat)
  /-- the actions of the signals change -/
  | ignore (by_ : Nat) (sigs : List Nat)
  /-- `prctl(PR_SET_PDEATHSIG)` -/
  | deathSignal (by_ : Nat) (sig : Option Nat)
  | wait (by_ : Nat) (call : Call)
  /-- a blocked wait runs again -/
  | again (i : Nat)
  /-- a blocked wait is interrupted -/
  | leave (i : Nat)
  | exit (pid : Nat) (x : Exit)
  /-- an event for a thread of a process that is a zombie already -/
  | late (pid : Nat)

inductive Result where
  | none
  | pid (p : Nat)
  | errno (e : Option Errno)
  | waited (out : Out)
deriving DecidableEq, Repr

/-- The effect of a wait. -/
def runWait (s : St) (me : Proc) (c : Call) : R (St × Result × List Ev) := do
  let (out, z) ← waitCall s me c
  let s := match z with
    | some z => { s with procs := s.procs.filter (·.pid ≠ z.pid) }
    | none => s
  let s := if out.ret = .blocked then { s with waiters := s.waiters ++ [⟨me.pid, c, false⟩] } else s
  .ok (s, .waited out, [])

/-- A running process. -/
def St.running (s : St) (pid : Nat) : Option Proc :=
  match s.find pid with
  | some p => if p.running then some p else none
  | none => none

/-- `get_new_thread_id` (host.rs:680-684): the counter is an `i32`. -/
def newId (s : St) : R (Nat × St) := do
  R.assert (s.next < 2 ^ 31)
  .ok (s.next, { s with next := s.next + 1 })

def step (s : St) (a : Act) : Option (R (St × Result × List Ev)) :=
  match a with
  | .spawn => some (do
      let (pid, s) ← newId s
      .ok ({ s with procs := s.procs ++ [⟨pid, init, init, init, none, none, none, []⟩] }, .pid pid, []))
  | .fork me cloneParent exitSignal ignored =>
    (s.running me).map fun p => do
      let (pid, s) ← newId s
      let child : Proc := { pid, parent := if cloneParent then p.parent else p.pid, group := p.group,
                            session := p.session, exitSignal, ignored }
      .ok ({ s with procs := s.procs ++ [child] }, .pid pid, [])
  | .thread => some (do
      let (tid, s) ← newId s
      .ok (s, .pid tid, []))
  | .setpgid me pid pgid =>
    (s.running me).map fun p =>
      let (e, s) := setpgid s p pid pgid
      .ok (s, .errno e, [])
  | .setsid me =>
    (s.running me).map fun p =>
      let (e, s) := setsid s p
      .ok (s, .errno e, [])
  | .ignore me sigs =>
    (s.running me).map fun p => .ok (s.update p.pid fun q => { q with ignored := sigs }, .none, [])
  | .deathSignal me sig =>
    (s.running me).map fun p => .ok (s.update p.pid fun q => { q with deathSignal := sig }, .none, [])
  | .wait me call => (s.running me).map fun p => runWait s p call
  | .again i =>
    match s.waiters[i]? with
    | none => none
    | some w =>
      (s.running w.owner).map fun p => runWait { s with waiters := s.waiters.eraseIdx i } p w.call
  | .leave i =>
    match s.waiters[i]? with
    | none => none
    | some _ => some (.ok ({ s with waiters := s.waiters.eraseIdx i }, .none, []))
  | .exit pid x =>
    (s.running pid).map fun p => do
      let (s, evs) ← die s p x
      .ok (s, .none, evs)
  | .late pid =>
    match s.find pid with
    | none => none
    | some p => if p.running then none else some (do
        let (s, evs) ← bury s p
        .ok (s, .none, evs))

/-! ## Physical addresses -/

/-- `Common::physical_address` (process.rs:182-217).  Shifting left drops high bits. -/
def physicalAddress (pid vptr : Nat) : R Nat := do
  let high := (pid * 2 ^ 48) % 2 ^ 64
  R.assert (high / 2 ^ 48 = pid)
  R.assert (vptr / 2 ^ 48 = 0)
  .ok (high ||| vptr)

end Shadow.Procs
