import Verif.Base.Panic
import Verif.SockAddr.Model
/-!
# Resource limits

Source: `/repo/src/main/host/syscall/handler/resource.rs` and `Process::prlimit64` in `/repo/src/main/host/process.rs`, with what happens to limits when
processes start, fork, replace their program and end.

The simulator keeps the limits that a program sees, and changes the limits of the native process as far as its own code in there allows.

Trusted: the kernel accepts limits whose soft limit is not above the hard limit and whose hard limit is not above the one before (`Kernel`); a native process
inherits the limits of the one that made it. The limits of the simulator itself do not change once there are processes.
Simplifications: the memory of each process is that of `Verif/IoVec/Model.lean`; processes are a partial map from numbers.
-/
namespace Shadow.Rlimit

open Shadow.Base
open Shadow.IoVec (Mem load store)
open Shadow.SockAddr (Byte le ofLe EFAULT EINVAL)

def EPERM : Nat := 1
def ESRCH : Nat := 3

/-- `rlimit64` and `rlimit` (linux-api/src/bindings.rs), which are the same on this machine. -/
structure Lim where
  cur : Nat
  max : Nat
deriving DecidableEq, Repr

/-- `RLIM_NLIMITS`: `Resource::try_from` accepts 0 to 15 (linux-api/src/resource.rs:36-56). -/
def nLimits : Nat := 16

/-- The fields of a process that matter here (process.rs:174, and `native_pid` of one that runs). -/
structure Pr where
  /-- `rlimits` -/
  emu : Nat → Lim
  /-- the limits of the native process; `none` for a zombie -/
  native : Option (Nat → Lim)
  mem : Mem Byte

def upd (f : Nat → Lim) (r : Nat) (l : Lim) : Nat → Lim := fun x => if x = r then l else f x

/-- The limits that the native process gets (process.rs:1656-1677). -/
def nativeLim (old new : Lim) : Lim :=
  ⟨if new.cur < old.cur then old.cur else new.cur, if new.max < old.cur then old.cur else new.max⟩

/-- Setting a limit (process.rs:1623-1687). `kset` is the kernel. The number is an error. -/
def Pr.setLim (kset : Lim → Lim → Option Lim) (p : Pr) (r : Nat) (new : Lim) : R (Pr × Option Nat) :=
  if new.cur > new.max then .ok (p, some EINVAL)
  else if new.max > (p.emu r).max then .ok (p, some EPERM)
  else match p.native with
    | none => .ok ({ p with emu := upd p.emu r new }, none)
    | some nat => do
      let l ← R.unwrap (kset (nat r) (nativeLim (nat r) new))
      .ok ({ p with emu := upd p.emu r new, native := some (upd nat r l) }, none)

/-- `Process::prlimit64` (process.rs:1608-1622): the process, an error, and the limit before. -/
def Pr.prlimit (kset : Lim → Lim → Option Lim) (p : Pr) (r : Nat) : Option Lim → R (Pr × Option Nat × Lim)
  | none => .ok (p, none, p.emu r)
  | some new => do
    let (q, e) ← p.setLim kset r new
    .ok (q, e, p.emu r)

structure St where
  procs : Nat → Option Pr
  /-- the limits of the simulator -/
  base : Nat → Lim

def St.set (s : St) (pid : Nat) (p : Option Pr) : St := { s with procs := fun x => if x = pid then p else s.procs x }

/-- Which process is meant (resource.rs:21-35); process numbers are not negative. -/
def target (self : Nat) (pid : Int) : Option Nat := if pid = 0 then some self else if pid < 0 then none else some pid.toNat

/-- `prlimit64_impl` (resource.rs:9-36): the state, an error, and the limit before. -/
def prlimitImpl (kset : Lim → Lim → Option Lim) (s : St) (self : Nat) (pid : Int) (r : Nat) (new : Option Lim) : R (St × Option Nat × Lim) :=
  if nLimits ≤ r then .ok (s, some EINVAL, ⟨0, 0⟩)
  else match target self pid with
    | none => .ok (s, some ESRCH, ⟨0, 0⟩)
    | some t => match s.procs t with
      | none => .ok (s, some ESRCH, ⟨0, 0⟩)
      | some p => do
        let (q, e, old) ← p.prlimit kset r new
        .ok (s.set t (some q), e, old)

/-- `memory_borrow().read` of a limit. -/
def readLim (m : Mem Byte) (a : Nat) : Option Lim := (load m a 16).map (fun bs => ⟨ofLe (bs.take 8), ofLe (bs.drop 8)⟩)

/-- `memory_borrow_mut().write` of a limit into the memory of a process. -/
def St.writeLim (s : St) (self a : Nat) (l : Lim) : St × Option Nat :=
  match s.procs self with
  | none => (s, some EFAULT)
  | some p => if (load p.mem a 16).isSome then (s.set self (some { p with mem := store p.mem a (le l.cur 8 ++ le l.max 8) }), none) else (s, some EFAULT)

/-- What a call ends with: the old limit is written if it is asked for. -/
def finish (self a : Nat) : St × Option Nat × Lim → R (St × Option Nat)
  | (s, some e, _) => .ok (s, some e)
  | (s, none, old) => if a = 0 then .ok (s, none) else .ok (s.writeLim self a old)

/-- The limit at an address, if it is not null: `none` is a fault. -/
def newLim (m : Mem Byte) (a : Nat) : Option (Option Lim) := if a = 0 then some none else (readLim m a).map some

/-- `prlimit64` (resource.rs:46-78). -/
def prlimit64 (kset : Lim → Lim → Option Lim) (s : St) (self : Nat) (m : Mem Byte) (pid : Int) (r newPtr oldPtr : Nat) : R (St × Option Nat) :=
  match newLim m newPtr with
  | none => .ok (s, some EFAULT)
  | some new => do
    let res ← prlimitImpl kset s self pid r new
    finish self oldPtr res

/-- The end of `getrlimit` (resource.rs:96-104); the pointer may be anything. -/
def finishGet (self a : Nat) : St × Option Nat × Lim → R (St × Option Nat)
  | (s, some e, _) => .ok (s, some e)
  | (s, none, old) => .ok (s.writeLim self a old)

/-- `getrlimit` (resource.rs:86-105). -/
def getrlimit (kset : Lim → Lim → Option Lim) (s : St) (self r a : Nat) : R (St × Option Nat) := do
  let res ← prlimitImpl kset s self 0 r none
  finishGet self a res

/-- `setrlimit` (resource.rs:113-125). -/
def setrlimit (kset : Lim → Lim → Option Lim) (s : St) (self : Nat) (m : Mem Byte) (r a : Nat) : R (St × Option Nat) :=
  match readLim m a with
  | none => .ok (s, some EFAULT)
  | some new => do
    let res ← prlimitImpl kset s self 0 r (some new)
    .ok (res.1, res.2.1)

/-- What happens on a host. -/
inductive Op where
  /-- a process starts (process.rs:1087-1107): it takes the limits of its native process, which has those of the simulator -/
  | spawn (pid : Nat) (m : Mem Byte)
  /-- `fork` (process.rs:634) -/
  | fork (pid child : Nat)
  /-- `execve` (process.rs:306-325, 1769-1781): a new native process is started by the simulator -/
  | exec (pid : Nat) (m : Mem Byte)
  | exit (pid : Nat)
  | reap (pid : Nat)
  /-- the program changes its memory -/
  | poke (pid : Nat) (m : Mem Byte)
  | prlimit (self : Nat) (pid : Int) (r newPtr oldPtr : Nat)
  | get (self r a : Nat)
  | set (self r a : Nat)

/-- One step; what is not possible does nothing. Calls are made by processes that run. -/
def step (kset : Lim → Lim → Option Lim) (s : St) : Op → R (St × Option Nat)
  | .spawn pid m => match s.procs pid with
    | none => .ok (s.set pid (some ⟨s.base, some s.base, m⟩), none)
    | some _ => .ok (s, none)
  | .fork pid child => match s.procs pid, s.procs child with
    | some p, none => if p.native.isSome then .ok (s.set child (some p), none) else .ok (s, none)
    | _, _ => .ok (s, none)
  | .exec pid m => match s.procs pid with
    | some p => if p.native.isSome then .ok (s.set pid (some ⟨p.emu, some s.base, m⟩), none) else .ok (s, none)
    | none => .ok (s, none)
  | .exit pid => match s.procs pid with
    | some p => .ok (s.set pid (some { p with native := none }), none)
    | none => .ok (s, none)
  | .reap pid => .ok (s.set pid none, none)
  | .poke pid m => match s.procs pid with
    | some p => .ok (s.set pid (some { p with mem := m }), none)
    | none => .ok (s, none)
  | .prlimit self pid r newPtr oldPtr => match s.procs self with
    | some p => if p.native.isSome then prlimit64 kset s self p.mem pid r newPtr oldPtr else .ok (s, none)
    | none => .ok (s, none)
  | .get self r a => match s.procs self with
    | some p => if p.native.isSome then getrlimit kset s self r a else .ok (s, none)
    | none => .ok (s, none)
  | .set self r a => match s.procs self with
    | some p => if p.native.isSome then setrlimit kset s self p.mem r a else .ok (s, none)
    | none => .ok (s, none)

def run (kset : Lim → Lim → Option Lim) (s : St) : List Op → R St
  | [] => .ok s
  | o :: l => do
    let (s', _) ← step kset s o
    run kset s' l

def St.init (base : Nat → Lim) : St := ⟨fun _ => none, base⟩

end Shadow.Rlimit
