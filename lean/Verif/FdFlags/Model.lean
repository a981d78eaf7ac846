import Verif.Base.Panic
/-!
# Flags of descriptors and of files: `fcntl` and `ioctl`

Source: `/repo/src/main/host/syscall/handler/fcntl.rs`, `/repo/src/main/host/syscall/handler/ioctl.rs`, `FileStatus` and `FileMode` of `/repo/src/main/host/descriptor/mod.rs`, the constants of
`/repo/src/lib/linux-api/src/bindings.rs` (268-342, 2229-2245).

Simplifications: one table of descriptors. Regular files ("legacy" files) answer `F_GETFL`, `F_SETFL` and locks in C by asking the kernel: such an answer is `native`. What a file does with an `ioctl` of its own is a
parameter and does not change flags. When a number for a new descriptor is chosen is in C56: the number is a parameter here.
-/
namespace Shadow.FdFlags

open Shadow.Base

/-- `OFlag`, an `i32` (linux-api/src/fcntl.rs:8-31). -/
abbrev Flags := BitVec 32

def O_ACCMODE : Flags := 3
def O_RDONLY : Flags := 0
def O_WRONLY : Flags := 1
def O_RDWR : Flags := 2
def O_CREAT : Flags := 64
def O_EXCL : Flags := 128
def O_NOCTTY : Flags := 256
def O_TRUNC : Flags := 512
def O_APPEND : Flags := 1024
def O_NONBLOCK : Flags := 2048
def O_DSYNC : Flags := 4096
def O_ASYNC : Flags := 8192
def O_DIRECT : Flags := 16384
def O_LARGEFILE : Flags := 32768
def O_DIRECTORY : Flags := 65536
def O_NOFOLLOW : Flags := 131072
def O_NOATIME : Flags := 262144
def O_CLOEXEC : Flags := 524288
def O_SYNC : Flags := 1052672
def O_PATH : Flags := 2097152
def O_TMPFILE : Flags := 4259840

/-- All bits of `OFlag`, for `from_bits`. -/
def O_ALL : Flags := O_ACCMODE ||| O_CREAT ||| O_EXCL ||| O_NOCTTY ||| O_TRUNC ||| O_APPEND ||| O_NONBLOCK ||| O_DSYNC ||| O_ASYNC ||| O_DIRECT ||| O_LARGEFILE ||| O_DIRECTORY ||| O_NOFOLLOW
  ||| O_NOATIME ||| O_CLOEXEC ||| O_SYNC ||| O_PATH ||| O_TMPFILE

/-- All bits of `FileStatus` (descriptor/mod.rs:40-46). -/
def STATUS_ALL : Flags := O_NONBLOCK ||| O_APPEND ||| O_ASYNC ||| O_DIRECT ||| O_NOATIME

/-- `FileMode` (descriptor/mod.rs:69-72). -/
structure Mode where
  read : Bool
  write : Bool
deriving DecidableEq, Repr

/-- `FileMode::as_o_flags` (descriptor/mod.rs:76-89). -/
def Mode.oFlags : Mode → Flags
  | ⟨true, true⟩ => O_RDWR
  | ⟨true, false⟩ => O_RDONLY
  | ⟨false, true⟩ => O_WRONLY
  | ⟨false, false⟩ => O_PATH

structure File where
  status : Flags
  mode : Mode
  legacy : Bool
  /-- the size of a pipe -/
  pipe : Option Nat
deriving DecidableEq, Repr

structure Desc where
  file : Nat
  cloexec : Bool
deriving DecidableEq, Repr

structure World where
  descs : Nat → Option Desc
  files : Nat → File

inductive Ret where
  | val (n : Nat)
  | ebadf | einval | enosys | efault | enotty
  /-- what the kernel says about the file behind a regular file -/
  | native
  /-- what the kind of file says -/
  | own
deriving DecidableEq, Repr

inductive Fcntl where
  | getfl | setfl | getfd | setfd
  | dupfd (cloexec : Bool)
  | setlk | setlkw | ofdSetlk | ofdSetlkw | getlk | ofdGetlk
  | getpipesz
  /-- others of `FcntlCommand` -/
  | other
  /-- no `FcntlCommand` -/
  | unknown
deriving DecidableEq, Repr

inductive Ioctl where
  | fioclex | fionclex | fionbio
  /-- requests on terminals in the list of the C handler -/
  | tty
  | other | unknown
deriving DecidableEq, Repr

inductive Op where
  /-- `to` is the free number for a duplicate, if there is one -/
  | fcntl (fd : Nat) (cmd : Fcntl) (arg : Nat) (to : Option Nat)
  /-- `val` is what is in memory at the argument, if it can be read -/
  | ioctl (fd : Nat) (cmd : Ioctl) (val : Option Int)
deriving DecidableEq, Repr

def World.setDesc (w : World) (fd : Nat) (d : Desc) : World := { w with descs := fun k => if k = fd then some d else w.descs k }
def World.setStatus (w : World) (f : Nat) (s : Flags) : World := { w with files := fun k => if k = f then { w.files k with status := s } else w.files k }

/-- The new status for `F_SETFL` (fcntl.rs:84-134), `none` for `EINVAL`. -/
def newStatus (old : Flags) (arg : Nat) : Option Flags :=
  -- `i32::try_from` of an unsigned long
  if arg < 2 ^ 31 then
    let a := BitVec.ofNat 32 arg
    if a &&& ~~~O_ALL = 0 then
      let a := a &&& ~~~(O_RDONLY ||| O_WRONLY ||| O_RDWR ||| O_PATH)
      let a := a &&& ~~~(O_CLOEXEC ||| O_CREAT ||| O_DIRECTORY ||| O_EXCL ||| O_NOCTTY ||| O_NOFOLLOW ||| O_TMPFILE ||| O_TRUNC)
      let update := O_APPEND ||| O_ASYNC ||| O_DIRECT ||| O_NOATIME ||| O_NONBLOCK
      let s := (old &&& ~~~update) ||| (a &&& update)
      -- `FileStatus::from_o_flags`
      if s &&& ~~~STATUS_ALL = 0 then some (s &&& STATUS_ALL) else none
    else none
  else none

/-- `fcntl` (fcntl.rs:19-182). -/
def World.fcntl (w : World) (fd : Nat) (cmd : Fcntl) (arg : Nat) (to : Option Nat) : R (World × Ret) :=
  match w.descs fd with
  | none => .ok (w, .ebadf)
  | some d =>
    let f := w.files d.file
    match cmd with
    | .unknown => .ok (w, .einval)
    | .setlk | .setlkw | .ofdSetlkw | .getlk | .ofdGetlk => .ok (w, if f.legacy then .native else .enosys)
    | .getfl => .ok (w, if f.legacy then .native else .val (f.status ||| f.mode.oFlags).toNat)
    | .setfl =>
      if f.legacy then .ok (w, .native) else
        match newStatus f.status arg with
        | none => .ok (w, .einval)
        | some s => .ok (w.setStatus d.file s, .val 0)
    | .getfd => .ok (w, .val (if d.cloexec then 1 else 0))
    | .setfd => if arg = 0 ∨ arg = 1 then .ok (w.setDesc fd { d with cloexec := arg == 1 }, .val 0) else .ok (w, .einval)
    | .dupfd c =>
      match to with
      | none => .ok (w, .einval)
      | some n => .ok (w.setDesc n ⟨d.file, c⟩, .val n)
    | .getpipesz =>
      -- fcntl.rs:165-178: the C handler borrows the table, which is still borrowed here
      if f.legacy then .panic else
        match f.pipe with
        | some n => .ok (w, .val n)
        | none => .ok (w, .einval)
    | .ofdSetlk | .other => .ok (w, .einval)

/-- `ioctl` (ioctl.rs:21-87; handler/ioctl.c:26-88 for regular files). -/
def World.ioctl (w : World) (fd : Nat) (cmd : Ioctl) (val : Option Int) : R (World × Ret) :=
  if cmd = .unknown then .ok (w, .einval) else
    match w.descs fd with
    | none => .ok (w, .ebadf)
    | some d =>
      if cmd = .fioclex then .ok (w.setDesc fd { d with cloexec := true }, .val 0)
      else if cmd = .fionclex then .ok (w.setDesc fd { d with cloexec := false }, .val 0)
      else
        let f := w.files d.file
        if f.legacy then .ok (w, if cmd = .tty then .enotty else .einval)
        else if cmd = .fionbio then
          match val with
          | none => .ok (w, .efault)
          | some v => .ok (w.setStatus d.file (if v = 0 then f.status &&& ~~~O_NONBLOCK else f.status ||| O_NONBLOCK), .val 0)
        else .ok (w, .own)

def step (w : World) : Op → R (World × Ret)
  | .fcntl fd c a to => w.fcntl fd c a to
  | .ioctl fd c v => w.ioctl fd c v

def run (w : World) : List Op → R World
  | [] => .ok w
  | o :: l => do
    let r ← step w o
    run r.1 l

end Shadow.FdFlags
