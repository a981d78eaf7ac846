/-!
# Settings of processes: `prctl` and `arch_prctl`

Source: `/repo/src/main/host/syscall/handler/prctl.rs`, `/repo/src/main/host/process.rs`, `Signal::try_from` and `Signal::as_raw` of `/repo/src/lib/linux-api/src/signal.rs`. The numbers of options are those of
`/repo/src/lib/linux-api/src/bindings.rs`.

Simplifications: a process is there whenever it calls, `arg2` is a number below 2^64, whether memory can be written is a parameter, and so is the address that `PR_GET_TID_ADDRESS` gives. What the kernel does with
options that are passed on is not modelled, only which they are and that they were given to the present native process.
-/
namespace Shadow.Prctl

/-- What is kept of a process (process.rs:159 and 258), and the options given to its native process, the last first. -/
structure Proc where
  death : Option Nat
  dumpable : Nat
  given : List (Int × Nat)
deriving DecidableEq, Repr

/-- A process started by Shadow (process.rs:1126 and 1141); `SUID_DUMP_USER` is 1. -/
def Proc.new : Proc := ⟨none, 1, []⟩

inductive Ret where
  | ok (v : Nat)
  /-- success after writing a value -/
  | wrote (v : Nat)
  | einval | efault | enodev
  /-- passed on to the kernel -/
  | native
deriving DecidableEq, Repr

/-- Options passed on (prctl.rs:29-68). -/
def passed : List Int := [47, 23, 24, 36, 37, 20, 19, 45, 46, 10, 9, 12, 11, 8, 7, 33, 34, 43, 44, 15, 16, 38, 39, 35, 1499557217, 28, 27, 52, 41, 31, 32, 42, 30, 14, 13, 25, 5]

/-- `PR_SET_PDEATHSIG` (prctl.rs:86-95), with `i32::try_from` and `Signal::try_from` (signal.rs:27-33). -/
def setDeath (p : Proc) (arg : Nat) : Proc × Ret :=
  if arg = 0 then ({ p with death := none }, .ok 0)
  else if 2 ^ 31 ≤ arg then (p, .einval)
  else if 1 ≤ arg ∧ arg ≤ 64 then ({ p with death := some arg }, .ok 0)
  else (p, .einval)

/-- `PR_SET_DUMPABLE` (prctl.rs:109-117): `SUID_DUMP_DISABLE` is 0, `SUID_DUMP_USER` 1. -/
def setDumpable (p : Proc) (arg : Nat) : Proc × Ret :=
  if 2 ^ 31 ≤ arg then (p, .einval)
  else if [0, 1].contains arg then ({ p with dumpable := arg }, .ok 0)
  else (p, .einval)

/-- `prctl` (prctl.rs:20-127). -/
def prctl (tidAddr : Nat) (writable : Bool) (p : Proc) (option : Int) (arg : Nat) : Proc × Ret :=
  if passed.contains option then ({ p with given := (option, arg) :: p.given }, .native)
  else if option = 1 then setDeath p arg
  else if option = 2 then (p, if writable then .wrote (p.death.getD 0) else .efault)
  else if option = 40 then (p, if writable then .wrote tidAddr else .efault)
  else if option = 4 then setDumpable p arg
  else if option = 3 then (p, .ok p.dumpable)
  else (p, .einval)

/-- `arch_prctl` (prctl.rs:137-178). -/
def archPrctl (option : Int) : Ret :=
  if option = 4113 then .ok 1
  else if option = 4114 then .enodev
  else if [4098, 4099, 4097, 4100].contains option then .native
  else .einval

/-- What happens to the processes of a host. -/
inductive Op where
  /-- Shadow starts a process. -/
  | start (pid : Nat)
  /-- A process forks (process.rs:622-663). -/
  | fork (pid child : Nat)
  /-- A process runs another program, in a new native process (`update_for_exec`, process.rs:1769). -/
  | exec (pid : Nat)
  | prctl (pid tidAddr : Nat) (writable : Bool) (option : Int) (arg : Nat)

abbrev St := Nat → Proc

def St.set (s : St) (pid : Nat) (p : Proc) : St := fun q => if q = pid then p else s q

/-- One operation. What a forked native process takes over is left out. -/
def step (s : St) : Op → St
  | .start pid => s.set pid .new
  | .fork pid child => s.set child ⟨none, (s pid).dumpable, []⟩
  | .exec pid => s.set pid { s pid with given := [] }
  | .prctl pid t w o a => s.set pid (prctl t w (s pid) o a).1

def run (s : St) (l : List Op) : St := l.foldl step s

end Shadow.Prctl
