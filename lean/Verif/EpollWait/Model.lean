import Verif.Epoll.Model
import Verif.Time.Model
/-!
# The calls `epoll_wait`, `epoll_pwait`, `epoll_pwait2` and the arguments of `epoll_create` and `epoll_ctl`

Source: `/repo/src/main/host/syscall/handler/epoll.rs`.  The epoll object is the model of C25 (`Verif/Epoll`).  Any number of threads wait on it;
each waits on a condition for the object to become readable, with a timeout (`syscall_condition.c`; its own life is the subject of C67).

Simplifications: all calls are about one descriptor number, of which it is known whether it is open and whether it is this epoll object (another epoll
object under this number is not modelled); a listener of the epoll object is told of the change of its state at once, while the code does this when
the queue of callbacks is emptied, which is before any other call, task or time (C53).
-/
namespace Shadow.EpollWait

open Shadow.Base
open Shadow.Time
open Shadow.Epoll

def EINTR : Nat := 4
def EBADF : Nat := 9
def EFAULT : Nat := 14
def EPERM : Nat := 1
def EINVAL : Nat := 22

/-- The timeout of a call: milliseconds (`epoll_wait`, `epoll_pwait`), or a `timespec` (`epoll_pwait2`), or a null pointer or one that cannot be read. -/
inductive Timeout where
  | millis (n : Int)
  | spec (q : Int × Int)
  | null
  | bad
deriving DecidableEq, Repr

/-- A pointer: null, or one that can be used, or one that cannot. -/
inductive Ptr where
  | null
  | good
  | bad
deriving DecidableEq, Repr

structure Args where
  max : Int
  timeout : Timeout
  mask : Ptr := .null
  dst : Ptr := .good
deriving DecidableEq, Repr

/-- What the number of the descriptor stands for. -/
inductive Fd where
  | closed
  | other
  | epoll
deriving DecidableEq, Repr

/-- `epoll_max_events_upper_bound` (epoll.rs:449-455); `epoll_event` is packed and has 12 bytes. -/
def maxEvents : Int := 2147483647 / 12

/-- `timeout_arg_to_maybe_simtime` (epoll.rs:425-439) and the reading of the timeout of `epoll_pwait2` (epoll.rs:274-281). -/
def timeoutOf : Timeout → Except Nat (Option Nat)
  | .millis n =>
    if 0 ≤ n then match Sim.tryFromMillis n.toNat with
      | some t => .ok (some t)
      | none => .error EINVAL
    else .ok none
  | .spec q => match Sim.tryFromTimespec q.1 q.2 with
    | some t => .ok (some t)
    | none => .error EINVAL
  | .null => .ok none
  | .bad => .error EFAULT

/-- What a run of the handler ends with.  `lost`: the events were collected but could not be written. -/
inductive Out where
  | events (l : List (Events × Nat))
  | lost
  | zero
  | err (e : Nat)
  | block (until_ : Option Nat)

/-- `epoll_wait_helper` from the look at the ready events on (epoll.rs:338-420).  `cond` is the timeout of the condition from which the thread was woken. -/
def rest (w : World) (now : Nat) (sig : Bool) (cond : Option Nat) (max : Nat) (timeout : Option Nat) (dst : Ptr) : R (World × Out) :=
  if !w.ready.isEmpty then
    if dst = .null then .ok (w, .err EFAULT)
    else do
      let r ← w.collect max
      R.assert (decide (r.2.length ≤ max))
      if dst = .bad then .ok (r.1, .lost) else .ok (r.1, .events r.2)
  else if timeout = some 0 then .ok (w, .zero)
  else if cond.any (· ≤ now) then .ok (w, .zero)
  else if sig then .ok (w, .err EINTR)
  else match timeout with
    | none => .ok (w, .block none)
    | some t => match Emu.checkedAdd now t with
      | some d => .ok (w, .block (some d))
      | none => .ok (w, .err EINVAL)

/-- `epoll_wait`, `epoll_pwait`, `epoll_pwait2` and `epoll_wait_helper` (epoll.rs:202-337): the mask is read first, then the timeout, then `max_events` is checked,
a mask is refused, and the descriptor is looked up. -/
def handle (w : World) (now : Nat) (fd : Fd) (sig : Bool) (cond : Option Nat) (a : Args) : R (World × Out) :=
  if a.mask = .bad then .ok (w, .err EFAULT)
  else match timeoutOf a.timeout with
    | .error e => .ok (w, .err e)
    | .ok timeout =>
      if a.max ≤ 0 ∨ a.max > maxEvents then .ok (w, .err EINVAL)
      else if a.mask ≠ .null then .ok (w, .err EINVAL)
      else match fd with
        | .closed => .ok (w, .err EBADF)
        | .other => .ok (w, .err EINVAL)
        | .epoll => rest w now sig cond a.max.toNat timeout a.dst

/-- A thread that waits. -/
structure Wait where
  args : Args
  deadline : Option Nat
  sched : Bool := false
  start : Nat
deriving DecidableEq, Repr

/-- A call that has returned. -/
structure Ret where
  tid : Nat
  args : Args
  start : Nat
  time : Nat
  out : Out

structure St where
  w : World
  now : Nat
  fd : Fd := .epoll
  sig : Nat → Bool := fun _ => false
  wait : Nat → Option Wait := fun _ => none
  log : List Ret := []

def upd {α : Type} (f : Nat → α) (i : Nat) (v : α) : Nat → α := fun j => if j = i then v else f j

/-- The epoll object has changed: if it became readable, the condition of every thread that waits schedules its wakeup
(`syscall_condition.c:420-465`, status listener with `SLF_OFF_TO_ON`). -/
def St.setW (s : St) (w : World) : St :=
  { s with w := w, wait := if !s.w.readable && w.readable then (fun t => (s.wait t).map fun x => { x with sched := true }) else s.wait }

/-- The handler runs, and the thread returns or waits.  If it would wait but a signal is pending, it returns `EINTR` instead (`handler/mod.rs:244-254`).
A condition with a time in the past is a failed assertion (`timer.rs:198`). -/
def St.run (s : St) (t : Nat) (a : Args) (cond : Option Nat) (start : Nat) : R St := do
  let r ← handle s.w s.now s.fd (s.sig t) cond a
  match r.2 with
  | .block d =>
    if s.sig t then .ok { s.setW r.1 with wait := upd (s.setW r.1).wait t none, log := s.log ++ [⟨t, a, start, s.now, .err EINTR⟩] }
    else do
      R.assert (d.all (s.now ≤ ·))
      .ok { s.setW r.1 with wait := upd (s.setW r.1).wait t (some { args := a, deadline := d, start }) }
  | o => .ok { s.setW r.1 with wait := upd (s.setW r.1).wait t none, log := s.log ++ [⟨t, a, start, s.now, o⟩] }

inductive Act where
  | ctl (op : Op) (k : Key) (ev : Events) (d : Nat)
  | change (file : Nat) (new : Flags) (grew : Bool)
  | deliver
  | call (t : Nat) (a : Args)
  /-- the task that wakes the thread runs -/
  | wake (t : Nat)
  /-- an unblocked signal for the thread is there, and it is woken for it -/
  | signal (t : Nat)
  /-- the signals that were there are gone -/
  | take (t : Nat)
  /-- another thread closes or replaces the descriptor -/
  | fd (f : Fd)
  | tick (d : Nat)

/-- `_syscallcondition_satisfied` (`syscall_condition.c:344-358`). -/
def St.satisfied (s : St) (t : Nat) (x : Wait) : Bool := x.deadline.any (· ≤ s.now) || s.w.readable || s.sig t

/-- `_syscallcondition_trigger` (`syscall_condition.c:359-418`) is the step `wake`: without a reason to run, the wait goes on. -/
def step (s : St) : Act → Option (R St)
  | .ctl op k ev d => some (.ok (s.setW (s.w.ctl op k ev d).1))
  | .change file new grew => some (.ok (s.setW (s.w.change file new grew)))
  | .deliver => some (do
      let w ← s.w.deliver
      .ok (s.setW w))
  | .call t a => if (s.wait t).isNone then some (s.run t a none s.now) else none
  | .wake t => match s.wait t with
    | some x =>
      if x.sched || x.deadline.any (· ≤ s.now) then
        some (if s.satisfied t x then s.run t x.args x.deadline x.start
          else .ok { s with wait := upd s.wait t (some { x with sched := false }) })
      else none
    | none => none
  | .signal t => some (.ok { s with sig := upd s.sig t true, wait := upd s.wait t ((s.wait t).map fun x => { x with sched := true }) })
  | .take t => some (.ok { s with sig := upd s.sig t false })
  | .fd f => some (.ok { s with fd := f })
  | .tick d => some (.ok { s with now := s.now + d })

/-- The contract: calls and tasks run and time passes when all callbacks have been run (C53); time passes only up to the next task of the queue, which
a scheduled wakeup and an expired timer are (C04, C66, C67). -/
def allowed (s : St) : Act → Prop
  | .change .. => True
  | .deliver => s.w.queue ≠ []
  | .tick d => s.w.queue = [] ∧ s.now + d ≤ emuMax ∧
      ∀ t x, s.wait t = some x → x.sched = false ∧ ∀ e, x.deadline = some e → s.now + d ≤ e
  | _ => s.w.queue = []

/-! ## The arguments of `epoll_create` and `epoll_ctl` -/

/-- `epoll_create` (epoll.rs:26-37). -/
def createSize (size : Int) : Option Nat := if size ≤ 0 then some EINVAL else none

/-- `epoll_create1` (epoll.rs:44-64): the close-on-exec flag of the new descriptor.  `EPOLL_CLOEXEC` is 0x80000. -/
def createFlags (flags : BitVec 32) : Except Nat Bool :=
  if flags &&& ~~~(0x80000#32) ≠ 0 then .error EINVAL
  else .ok (flags &&& 0x80000#32 = 0x80000#32)

/-- What the second descriptor of `epoll_ctl` stands for. -/
inductive Target where
  | closed
  | regular
  | itself
  | file
deriving DecidableEq, Repr

/-- The bits of `EpollEvents` (linux-api epoll.rs:27-60; values of the kernel header). -/
def knownEvents : BitVec 32 :=
  0x1#32 ||| 0x2#32 ||| 0x4#32 ||| 0x8#32 ||| 0x10#32 ||| 0x20#32 ||| 0x40#32 ||| 0x80#32 ||| 0x100#32 ||| 0x200#32 ||| 0x400#32 ||| 0x2000#32 |||
  0x10000000#32 ||| 0x20000000#32 ||| 0x40000000#32 ||| 0x80000000#32

/-- `EpollCtlOp::try_from` (linux-api epoll.rs:16-20). -/
def opOf (op : Int) : Option Op :=
  if op = 1 then some .add else if op = 2 then some .del else if op = 3 then some .mod else none

/-- The checks of `epoll_ctl` (epoll.rs:94-180): the first error, or the operation and the bits that are registered.  `ev` is what is at the pointer, if it can be read. -/
def ctlArgs (fd : Fd) (target : Target) (op : Int) (ev : Option (BitVec 32)) : Except Nat (Op × BitVec 32) :=
  match fd with
  | .closed => .error EBADF
  | .other => .error EINVAL
  | .epoll => match target with
    | .closed => .error EBADF
    | .regular => .error EPERM
    | .itself => .error EINVAL
    | .file => match opOf op with
      | none => .error EINVAL
      | some .del => .ok (.del, 0)
      | some o => match ev with
        | none => .error EFAULT
        | some e => if e &&& ~~~knownEvents ≠ 0 then .error EINVAL else .ok (o, e ||| 0x8#32 ||| 0x10#32)

end Shadow.EpollWait
