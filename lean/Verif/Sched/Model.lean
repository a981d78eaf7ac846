import Verif.SockAddr.Model
/-!
# Scheduling settings of threads

Source: `/repo/src/main/host/syscall/handler/sched.rs`, the settings in `/repo/src/main/host/thread.rs`, and the lookup of threads in `/repo/src/main/host/host.rs`.

The simulator does not schedule by them, but programs set and read back the policy and the priority of threads, and read which processors they may use.

Simplifications: the memory of each process is that of `Verif/IoVec/Model.lean`; threads of a host are a partial map from numbers; creating, ending and replacing a thread (`clone`, exit, `execve`)
are given only as far as the settings go. Constants of `linux_api::sched` are written out.
-/
namespace Shadow.Sched

open Shadow.Base
open Shadow.IoVec (Mem load store)
open Shadow.SockAddr (Byte le ofLe EFAULT EINVAL)

def ESRCH : Nat := 3

/-- `Sched` (linux-api/src/sched.rs:14-22; bindings.rs:1440-1446). -/
inductive Policy where
  | normal
  | fifo
  | rr
  | batch
  | idle
  | deadline
  | ext
deriving DecidableEq, Repr

/-- `i32::from(Sched)` (derived, linux-api/src/sched.rs:12). -/
def Policy.num : Policy → Nat
  | .normal => 0
  | .fifo => 1
  | .rr => 2
  | .batch => 3
  | .idle => 5
  | .deadline => 6
  | .ext => 7

/-- `Sched::try_from` (derived, linux-api/src/sched.rs:12). -/
def Policy.ofNum (n : BitVec 32) : Option Policy :=
  if n = 0 then some .normal
  else if n = 1 then some .fifo
  else if n = 2 then some .rr
  else if n = 3 then some .batch
  else if n = 5 then some .idle
  else if n = 6 then some .deadline
  else if n = 7 then some .ext
  else none

/-- `SCHED_RESET_ON_FORK` (linux-api/src/bindings.rs:1447). -/
def RESET : BitVec 32 := 0x40000000#32

/-- The fields of `Thread` that matter here (thread.rs:50-51): `sched_policy` and, of `sched_attr`, the policy, the flags and the priority. -/
structure Th where
  proc : Nat
  policy : Policy
  attrPolicy : Nat
  attrFlags : Nat
  attrPriority : Nat
deriving DecidableEq, Repr

/-- `wrap_mthread` (thread.rs:485-497). -/
def Th.new (proc : Nat) : Th := ⟨proc, .normal, 0, 0, 0⟩

/-- `sched_reset_on_fork` (thread.rs:226-229): `SCHED_FLAG_RESET_ON_FORK` is 1. -/
def Th.reset (t : Th) : Bool := t.attrFlags == 1

/-- `sched_priority` (thread.rs:222-224): `u32` to `c_int`, unwrapped. -/
def Th.priority (t : Th) : R Nat := do
  R.assert (decide (t.attrPriority < 2 ^ 31))
  .ok t.attrPriority

/-- `set_sched_attrs` (thread.rs:231-243): `c_int` to `u32`, unwrapped. -/
def Th.set (t : Th) (p : Policy) (reset : Bool) (prio : Int) : R Th := do
  R.assert (decide (0 ≤ prio))
  .ok { t with policy := p, attrPolicy := p.num, attrFlags := if reset then 1 else 0, attrPriority := prio.toNat }

/-- The threads of a host and the memory of its processes. -/
structure St where
  threads : Nat → Option Th
  mem : Nat → Mem Byte

def upd {α : Type} (f : Nat → α) (k : Nat) (v : α) : Nat → α := fun x => if x = k then v else f x

/-- `with_sched_target_thread` (sched.rs:24-42): the number of the thread that is meant. -/
def St.target (s : St) (self : Nat) (tid : Int) : Option Nat :=
  if tid = 0 ∨ tid = self then some self
  else if tid < 0 then none
  else if (s.threads tid.toNat).isSome then some tid.toNat
  else none

/-- `validate_sched_attrs` (sched.rs:48-54). -/
def valid (p : Policy) (prio : Int) : Bool :=
  match p with
  | .normal | .batch | .idle => decide (prio = 0)
  | .fifo | .rr => decide (1 ≤ prio ∧ prio ≤ 99)
  | .deadline | .ext => false

/-- The result of a call: what the handlers return (sched.rs), or a failed `unwrap`. -/
inductive Out where
  | ret (n : Int)
  | err (e : Nat)
  | panic
deriving DecidableEq, Repr

def ofR {α : Type} (s : St) (r : R α) (f : α → St × Out) : St × Out :=
  match r with
  | .ok a => f a
  | .panic => (s, .panic)

/-- Reading an `int` (sched.rs:211-215, 251-255). -/
def readInt (m : Mem Byte) (p : Nat) : Option Int := (load m p 4).map fun bs => (BitVec.ofNat 32 (ofLe bs)).toInt

/-- Writing bytes to memory, all of which must be accessible (sched.rs:166-169). -/
def write (m : Mem Byte) (p : Nat) (bs : List Byte) : Option (Mem Byte) := if (load m p bs.length).isSome then some (store m p bs) else none

/-- sched.rs:81-84, 124-127: whether the thread of the affinity calls exists. -/
def St.exists? (s : St) (tid : Int) : Bool := decide (0 ≤ tid) && ((s.threads tid.toNat).isSome || decide (tid = 0))

/-- `sched_getaffinity` (sched.rs:66-104). -/
def St.getAffinity (s : St) (proc : Nat) (tid : Int) (size ptr : Nat) : St × Out :=
  if s.exists? tid = false then (s, .err ESRCH)
  else if size = 0 then (s, .err EINVAL)
  else match load (s.mem proc) ptr size with
    | none => (s, .err EFAULT)
    | some bs => ({ s with mem := upd s.mem proc (store (s.mem proc) ptr (1 :: bs.tail)) }, .ret 1)

/-- `sched_setaffinity` (sched.rs:113-145). -/
def St.setAffinity (s : St) (proc : Nat) (tid : Int) (size ptr : Nat) : St × Out :=
  if s.exists? tid = false then (s, .err ESRCH)
  else if size = 0 then (s, .err EINVAL)
  else match load (s.mem proc) ptr size with
    | none => (s, .err EFAULT)
    | some bs => if (bs.headD 0).getLsbD 0 then (s, .ret 0) else (s, .err EINVAL)

/-- `sched_getparam` (sched.rs:153-170). -/
def St.getParam (s : St) (self proc : Nat) (tid : Int) (ptr : Nat) : St × Out :=
  match (s.target self tid).bind s.threads with
  | none => (s, .err ESRCH)
  | some t => ofR s t.priority fun prio =>
    match write (s.mem proc) ptr (le prio 4) with
    | none => (s, .err EFAULT)
    | some m => ({ s with mem := upd s.mem proc m }, .ret 0)

/-- `sched_getscheduler` (sched.rs:177-192). -/
def St.getScheduler (s : St) (self : Nat) (tid : Int) : St × Out :=
  match (s.target self tid).bind s.threads with
  | none => (s, .err ESRCH)
  | some t => (s, .ret (if t.reset then t.policy.num + 2 ^ 30 else t.policy.num))

/-- The last step of `sched_setparam` and `sched_setscheduler`. -/
def St.setAttrs (s : St) (k : Nat) (t : Th) (p : Policy) (reset : Bool) (prio : Int) : St × Out :=
  ofR s (t.set p reset prio) fun t => ({ s with threads := upd s.threads k (some t) }, .ret 0)

/-- `sched_setparam` (sched.rs:200-229). -/
def St.setParam (s : St) (self proc : Nat) (tid : Int) (ptr : Nat) : St × Out :=
  match readInt (s.mem proc) ptr with
  | none => (s, .err EFAULT)
  | some prio =>
    match s.target self tid with
    | none => (s, .err ESRCH)
    | some k =>
      match s.threads k with
      | none => (s, .err ESRCH)
      | some t => if valid t.policy prio then s.setAttrs k t t.policy t.reset prio else (s, .err EINVAL)

/-- `sched_setscheduler` (sched.rs:238-282). -/
def St.setScheduler (s : St) (self proc : Nat) (tid : Int) (policy : BitVec 32) (ptr : Nat) : St × Out :=
  match readInt (s.mem proc) ptr with
  | none => (s, .err EFAULT)
  | some prio =>
    match Policy.ofNum (policy &&& ~~~RESET) with
    | none => (s, .err EINVAL)
    | some p =>
      if p = .deadline ∨ p = .ext then (s, .err EINVAL)
      else if valid p prio = false then (s, .err EINVAL)
      else match s.target self tid with
        | none => (s, .err ESRCH)
        | some k =>
          match s.threads k with
          | none => (s, .err ESRCH)
          | some t => s.setAttrs k t p (decide (policy &&& RESET ≠ 0)) prio

/-- `rseq` (sched.rs:292-349), with the length and the flags of the call: `cpu_id_start` and `cpu_id` are the first eight of the 64 bytes of the structure. `aligned` is whether the simulator's view
of the memory is aligned for them (macros.rs:271-275). The signature is not used. -/
def St.rseq (s : St) (proc : Nat) (aligned : Bool) (ptr len : Nat) (flags : BitVec 32) : St × Out :=
  if flags &&& ~~~3#32 ≠ 0 then (s, .err EINVAL)
  else if flags &&& 1#32 ≠ 0 then (s, .ret 0)
  else match load (s.mem proc) ptr (min len 64) with
    | none => (s, .err EFAULT)
    | some bs =>
      if bs.length < 8 ∨ aligned = false then (s, .err EINVAL)
      else ({ s with mem := upd s.mem proc (store (s.mem proc) ptr (List.replicate 8 0 ++ bs.drop 8)) }, .ret 0)

/-- What threads do: the calls, and `clone` (`wrap_mthread` with the number of the new thread and its process), the end of a thread, and writing to the own memory. -/
inductive Op where
  | getAffinity (tid : Int) (size ptr : Nat)
  | setAffinity (tid : Int) (size ptr : Nat)
  | getParam (tid : Int) (ptr : Nat)
  | getScheduler (tid : Int)
  | setParam (tid : Int) (ptr : Nat)
  | setScheduler (tid : Int) (policy : BitVec 32) (ptr : Nat)
  | rseq (aligned : Bool) (ptr len : Nat) (flags : BitVec 32)
  | clone (tid proc : Nat)
  | exit
  | poke (m : Mem Byte)

/-- The thread `self` does it; threads that do not exist do nothing. -/
def step (s : St) (self : Nat) (op : Op) : St × Out :=
  match s.threads self with
  | none => (s, .err ESRCH)
  | some t =>
    match op with
    | .getAffinity tid size ptr => s.getAffinity t.proc tid size ptr
    | .setAffinity tid size ptr => s.setAffinity t.proc tid size ptr
    | .getParam tid ptr => s.getParam self t.proc tid ptr
    | .getScheduler tid => s.getScheduler self tid
    | .setParam tid ptr => s.setParam self t.proc tid ptr
    | .setScheduler tid policy ptr => s.setScheduler self t.proc tid policy ptr
    | .rseq aligned ptr len flags => s.rseq t.proc aligned ptr len flags
    | .clone tid proc => ({ s with threads := upd s.threads tid (some (Th.new proc)) }, .ret tid)
    | .exit => ({ s with threads := upd s.threads self none }, .ret 0)
    | .poke m => ({ s with mem := upd s.mem t.proc m }, .ret 0)

end Shadow.Sched
