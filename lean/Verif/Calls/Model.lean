import Verif.Base.Panic

/-!
# The handler of system calls of one thread: blocking, interruption and delayed results

Models `SyscallHandler::syscall` (`src/main/host/syscall/handler/mod.rs:115-332`) and the
loop that hands calls to it (`src/main/host/managed_thread.rs:187-330`,
`src/main/host/thread.rs:513-550`, `src/main/host/process.rs:1221-1262`).

What the bodies of the handlers do (`run_handler`, `handler/mod.rs:334-645`) is not part of
the model: the result of a body is chosen by the environment at every execution.
Times are nanoseconds and are natural numbers (no overflow).
-/

namespace Shadow.Calls
open Shadow.Base

/-- `SysCallCondition` as far as the handler sees it (`src/main/host/syscall/condition.rs`):
the time at which the thread is woken at the latest, and the object that it waits for. -/
structure Cond where
  timeout : Option Nat := none
  trigger : Option Nat := none
deriving DecidableEq, Repr

/-- `SyscallResult` (`src/main/host/syscall/types.rs:121-142`): a value, `Failed`, `Blocked`
or `Native`. -/
inductive Res where
  | ok (v : Int)
  | failed (errno : Nat) (restartable : Bool)
  | blocked (c : Cond) (restartable : Bool)
  | native
deriving DecidableEq, Repr

/-- `matches!(rv, Err(SyscallError::Blocked(_)))`. -/
def Res.isBlocked : Res → Bool
  | .blocked _ _ => true
  | _ => false

/-- `Errno::EINTR` (`src/lib/linux-api/src/errno.rs`). -/
def EINTR : Nat := 4

/-- What is fixed for a host: `model_unblocked_syscall_latency`, `unblocked_syscall_latency`
and `max_unapplied_cpu_latency` (`HostShmem`, `src/lib/shadow-shim-helper-rs/src/shim_shmem.rs`),
the calls that only Shadow knows (`is_shadow_syscall`, `src/main/host/syscall/mod.rs:16-18`)
and the names of calls (`SyscallNum::to_str`). -/
structure Cfg where
  latOn : Bool
  lat : Nat
  maxLat : Nat
  shadowCall : Nat → Bool
  name : Nat → Option String

/-- `SyscallHandler` (`handler/mod.rs:60-90`). `counter` holds the names that were given to
`Counter::add_one`, in order (the counter itself is C44). The fields for logging and the
epoll object are left out. -/
structure Handler where
  num : Nat := 0
  counter : Option (List String) := none
  blockedCall : Option Nat := none
  pending : Option Res := none
deriving DecidableEq, Repr

/-- The clock of the worker and `unapplied_cpu_latency` of the host
(`HostShmemProtected`, `shim_shmem.rs`). -/
structure World where
  now : Nat := 0
  unapplied : Nat := 0
deriving DecidableEq, Repr

/-- What the environment decides at one execution: the result of the body of the handler,
`unblocked_signal_pending` (`src/main/host/thread.rs:575-597`), `process.is_running()` and
`Worker::max_event_runahead_time` (`src/main/core/worker.rs:270-277`). -/
structure Orc where
  body : Res
  sig : Bool := false
  running : Bool := true
  ahead : Nat := 0
deriving DecidableEq, Repr

/-- `SyscallNum::new(args.number.try_into().unwrap())` (`handler/mod.rs:121`): the number is
an `i64` and must fit a `u32`. -/
def toNum (n : Int) : R Nat :=
  if 0 ≤ n ∧ n < 4294967296 then .ok n.toNat else .panic

/-- `syscall_name` (`handler/mod.rs:122`). -/
def Cfg.callName (cfg : Cfg) (n : Nat) : String := (cfg.name n).getD "unknown-syscall"

/-- Lines 314-332: remember the number of the call if it blocks. -/
def Handler.finish (h : Handler) (w : World) (n : Nat) (r : Res) : R (Handler × World × Res × Bool) :=
  .ok ({ h with blockedCall := if r.isBlocked then some n else none }, w, r, true)

/-- Lines 228-240: a call that would block fails with EINTR if an unblocked signal waits. -/
def interrupted (r : Res) (sig : Bool) : Res :=
  match r with
  | .blocked _ rs => if sig then .failed EINTR rs else r
  | _ => r

/-- Lines 256-263: `unapplied_cpu_latency` after a call that did not block. -/
def Cfg.charge (cfg : Cfg) (n : Nat) (u : Nat) : Nat :=
  if cfg.latOn && !cfg.shadowCall n then u + cfg.lat else u

/-- Lines 158-332: everything after the check for a delayed result. -/
def Handler.execute (cfg : Cfg) (h : Handler) (w : World) (n : Nat) (o : Orc) :
    R (Handler × World × Res × Bool) := do
  -- 161-169: count only the first attempt
  let h := if h.blockedCall.isNone then
      { h with counter := h.counter.map (· ++ [cfg.callName n]) } else h
  -- 190-193
  let h := if o.body.isBlocked then h else { h with num := h.num + 1 }
  let r := interrupted o.body o.sig
  -- 252-312
  if o.running && !r.isBlocked then
    let u := cfg.charge n w.unapplied
    if u > cfg.maxLat then
      let t := w.now + u
      if t ≤ o.ahead then h.finish { now := t, unapplied := 0 } n r
      else do
        R.assert h.pending.isNone
        Handler.finish { h with pending := some r } { w with unapplied := 0 } n
          (.blocked { timeout := some t } false)
    else h.finish { w with unapplied := u } n r
  else h.finish w n r

/-- `SyscallHandler::syscall` (lines 115-332). The last component of the result tells whether
the body was executed. -/
def Handler.syscall (cfg : Cfg) (h : Handler) (w : World) (number : Int) (o : Orc) :
    R (Handler × World × Res × Bool) := do
  let n ← toNum number
  -- 126-132
  R.assert (h.blockedCall.isNone || h.blockedCall == some n)
  match h.pending with
  | some r => do
    -- 137-147
    R.assert (!r.isBlocked)
    .ok ({ h with blockedCall := none, pending := none }, w, r, false)
  | none => h.execute cfg w n o

/-! ## One thread -/

/-- Where the thread is: it runs its program, or it waits for a condition with the call that
blocked (`current_event` of the managed thread and `cond` of the thread). -/
inductive Phase where
  | free
  | waiting (number : Int) (args : List Nat) (c : Cond)
deriving DecidableEq, Repr

/-- What can be seen of the thread: a call of the program, the execution of a handler body
with its result and whether a signal was waiting, the decision to delay the result until a
time, a wakeup, and the answer to the program. -/
inductive Ev where
  | call (number : Int) (args : List Nat)
  | run (number : Int) (args : List Nat) (r : Res) (sig : Bool)
  | delay (due : Nat)
  | wake (t : Nat) (sig : Bool)
  | ret (number : Int) (args : List Nat) (r : Res) (t : Nat)
deriving DecidableEq, Repr

/-- The state. -/
structure St where
  h : Handler := {}
  w : World := {}
  ph : Phase := .free
  log : List Ev := []
deriving DecidableEq, Repr

/-- The steps: the program makes a call; the thread is woken; the clock moves (other events
while the thread waits, or the shim while it runs); the shim counts latency. -/
inductive Act where
  | call (number : Int) (args : List Nat) (o : Orc)
  | resume (o : Orc)
  | tick (t : Nat)
  | cpu (u : Nat)
deriving DecidableEq, Repr

/-- Hand a call to the handler and act on the result (`managed_thread.rs:281-307`): wait for
the condition, or answer. The log gets the execution of the body, if it was executed, and
the delay, if the body was done but the thread has to wait. -/
def hand (cfg : Cfg) (s : St) (number : Int) (args : List Nat) (o : Orc) : R St := do
  let (h, w, r, ran) ← s.h.syscall cfg s.w number o
  let log := if ran then s.log ++ [.run number args o.body o.sig] else s.log
  match r with
  | .blocked c _ =>
    let log := match h.pending, c.timeout with
      | some _, some t => log ++ [.delay t]
      | _, _ => log
    .ok { h := h, w := w, ph := .waiting number args c, log := log }
  | r => .ok { h := h, w := w, ph := .free, log := log ++ [.ret number args r w.now] }

/-- One step. A woken thread drops the latency that was not applied
(`process.rs:1249-1256`) and hands the same call to the handler again. -/
def step (cfg : Cfg) (s : St) : Act → Option (R St)
  | .call number args o =>
    if s.ph = .free then some (hand cfg { s with log := s.log ++ [.call number args] } number args o)
    else none
  | .resume o =>
    match s.ph with
    | .waiting number args _ =>
      some (hand cfg { s with w := { s.w with unapplied := 0 }, log := s.log ++ [.wake s.w.now o.sig] }
        number args o)
    | .free => none
  | .tick t => some (.ok { s with w := { s.w with now := t } })
  | .cpu u => some (.ok { s with w := { s.w with unapplied := u } })

/-- The contract of the environment: numbers of calls fit a `u32`; the clock does not go
back; a waiting thread is woken only if its condition is met (`_syscallcondition_satisfied`,
`src/main/host/syscall/syscall_condition.c:344-360`): the time is reached, an unblocked
signal waits, or there is an object to wait for. -/
def allowed (s : St) : Act → Prop
  | .call number _ _ => 0 ≤ number ∧ number < 4294967296
  | .resume o =>
    match s.ph with
    | .waiting _ _ c => (∃ t, c.timeout = some t ∧ t ≤ s.w.now) ∨ o.sig = true ∨ c.trigger ≠ none
    | .free => True
  | .tick t => s.w.now ≤ t
  | .cpu _ => True

/-- The states that can be reached from a new thread. -/
inductive Run (cfg : Cfg) (count : Bool) (t0 : Nat) : St → Prop
  | init : Run cfg count t0
      { h := { counter := if count then some [] else none }, w := { now := t0 } }
  | step {s s' : St} {a : Act} : Run cfg count t0 s → allowed s a → step cfg s a = some (.ok s') →
      Run cfg count t0 s'

end Shadow.Calls
